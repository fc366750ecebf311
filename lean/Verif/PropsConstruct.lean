import Verif.ModelConstruct
import Verif.PropsNest
import Verif.PropsUtils

/-!
# C103–C105: what `Interval(...)` keeps of the numbers it is given
-/

set_option autoImplicit false
set_option linter.unusedSectionVars false

namespace IntvalPy
open Spec

/-! ## Specification -/

/-- `X` is the interval with the given ends: sorted on request, otherwise in the given order and classical exactly when
the order is ascending. -/
def EndsOf (sortQ : Bool) (l r : Num) (X : FIv) : Prop :=
  if sortQ then X.cls = .classical ∧
    ((Dbl.lt r.val l.val = true ∧ X.a.val = r.val ∧ X.b.val = l.val) ∨
      (Dbl.lt r.val l.val = false ∧ X.a.val = l.val ∧ X.b.val = r.val))
  else X.a.val = l.val ∧ X.b.val = r.val ∧ (X.cls = .classical ↔ Dbl.le l.val r.val = true)

/-- The number itself, or the nearest double of an integer. -/
def Kept (c c' : Num) : Prop := c' = c ∨ ∃ z : ℤ, c = .int z ∧ c' = .dbl (round .nearest z)

/-- All numbers of a nested list. -/
def AllNums (P : Num → Prop) (x : Nest Num) : Prop := ∀ idx c, Item x idx (.inl c) → P c

/-- A float, or an integer of at most 53 bits. -/
def SmallInt (c : Num) : Prop := ∀ z, c = .int z → |z| ≤ 2 ^ 53

/-- An integer that fits into 64 bits. -/
def Int64 (c : Num) : Prop := ∃ z : ℤ, c = .int z ∧ -(2 ^ 63) ≤ z ∧ z < 2 ^ 63

/-! ## Casts -/

theorem castTo_twice (d e : DType) (c : Num) : (c.castTo d).castTo e = c ∨ ∃ z : ℤ, c = .int z ∧
    (c.castTo d).castTo e = .dbl (round .nearest z) := by
  cases c with
  | dbl q => left; cases d <;> cases e <;> rfl
  | int z => cases d <;> cases e <;> first | exact Or.inl rfl | exact Or.inr ⟨z, rfl, rfl⟩

theorem castTo_small {d e : DType} {c : Num} (h : SmallInt c) : ((c.castTo d).castTo e).val = c.val := by
  rcases castTo_twice d e c with h1 | ⟨z, rfl, h1⟩
  · rw [h1]
  · rw [h1]
    have hz := h z rfl
    have hq : |(z : ℚ)| ≤ 2 ^ 53 := by exact_mod_cast hz
    have h2 : round .nearest (z : ℚ) = .fin z := by
      rw [round_near (hq.trans two53_le_maxFin), nearTo_of_isF (isF_int hz)]
    simp only [Num.val, h2]

theorem dtypeOf_i64 : ∀ els : List Cell, els ≠ [] → (∀ e ∈ els, e.dtype = .i64) → dtypeOf els = .i64
  | [], h, _ => absurd rfl h
  | x :: xs, _, h => by
    have key : ∀ ys : List Cell, (∀ e ∈ ys, Cell.dtype e = .i64) →
        ys.foldl (fun d y => d.promote (Cell.dtype y)) DType.i64 = .i64 := by
      intro ys
      induction ys with
      | nil => intro _; rfl
      | cons y ys ih =>
        intro hy
        rw [List.foldl_cons, hy y (by simp)]
        exact ih fun e he => hy e (by simp [he])
    simp only [dtypeOf]
    rw [h x (by simp)]
    exact key xs fun e he => h e (by simp [he])

/-! ## Positions -/

theorem rowMajor_surj : ∀ (s : List ℕ) (k : ℕ), k < cells s → ∃ idx, rowMajorIdx s idx = some k
  | [], k, h => ⟨[], by simp only [cells] at h; simp [rowMajorIdx]; omega⟩
  | n :: s, k, h => by
    simp only [cells] at h
    have hc : 0 < cells s := by
      rcases Nat.eq_zero_or_pos (cells s) with h0 | h0
      · rw [h0] at h; simp at h
      · exact h0
    obtain ⟨idx, hi⟩ := rowMajor_surj s (k % cells s) (Nat.mod_lt _ hc)
    refine ⟨k / cells s :: idx, ?_⟩
    have h1 : k / cells s < n := by rw [Nat.div_lt_iff_lt_mul hc]; exact h
    simp only [rowMajorIdx, h1, if_true, hi, Option.map_some]
    rw [Nat.div_add_mod']

theorem rowMajor_snoc : ∀ (s idx : List ℕ) (p k j : ℕ), rowMajorIdx s idx = some p → j < k →
    rowMajorIdx (s ++ [k]) (idx ++ [j]) = some (p * k + j)
  | [], [], p, k, j, h, hj => by cases h; simp [rowMajorIdx, hj, cells]
  | [], _ :: _, p, k, j, h, hj => by cases h
  | _ :: _, [], p, k, j, h, hj => by cases h
  | n :: s, i :: is, p, k, j, h, hj => by
    simp only [rowMajorIdx] at h
    split_ifs at h with hi
    cases hr : rowMajorIdx s is with
    | none => rw [hr] at h; cases h
    | some q =>
      rw [hr] at h
      cases h
      have hc : ∀ t : List ℕ, cells (t ++ [k]) = cells t * k := by
        intro t
        induction t with
        | nil => simp [cells]
        | cons a t ih => simp only [List.cons_append, cells, ih]; ring
      simp only [List.cons_append, rowMajorIdx, hi, if_true, rowMajor_snoc s is q k j hr hj, Option.map_some, hc]
      congr 1
      ring

theorem cells_snoc (t : List ℕ) (k : ℕ) : cells (t ++ [k]) = cells t * k := by
  induction t with
  | nil => simp [cells]
  | cons a t ih => simp only [List.cons_append, cells, ih]; ring

theorem Numeric.wellFormed {K : Type*} {x : Nest K} (h : Numeric x) : WellFormed x := by
  induction h with
  | num c => exact .num c
  | seq x xs _ ih => exact .seq _ ih

theorem Numeric.item {K : Type*} {x : Nest K} (h : Numeric x) : ∀ {idx : List ℕ} {e : K ⊕ Iv K}, Item x idx e →
    ∃ c, e = .inl c := by
  induction h with
  | num c =>
    intro idx e he
    cases he
    exact ⟨c, rfl⟩
  | seq x xs _ ih =>
    intro idx e he
    cases he with
    | seq _ i is y e h1 h2 => exact ih y (List.mem_of_getElem? h1) h2

theorem Numeric.cells_pos {K : Type*} {x : Nest K} (h : Numeric x) : ∀ {s : List ℕ}, HasShape x s → 0 < cells s := by
  induction h with
  | num c => intro s hs; cases hs; simp [cells]
  | seq x xs _ ih =>
    intro s hs
    cases hs with
    | seq _ _ t ht =>
      have := ih x (by simp) (ht x (by simp))
      simp only [cells]
      positivity

/-- `np.array` of a nested list of numbers. -/
theorem npArrayNum_ok {x : Nest Num} {s : List ℕ} (hx : Numeric x) (hs : HasShape x s) :
    ∃ els, npArrayNum x = some (s, dtypeOf els, els.map (Cell.castTo (dtypeOf els))) ∧ els.length = cells s ∧
      (∀ idx k, rowMajorIdx s idx = some k → ∃ c, els[k]? = some (.inl c) ∧ Item x idx (.inl c)) ∧
      ∀ e ∈ els, ∃ idx c, e = .inl c ∧ Item x idx (.inl c) := by
  obtain ⟨els, h1, h2, h3⟩ := npAsarray_ok hs hx.wellFormed
  have h4 : ∀ idx k, rowMajorIdx s idx = some k → ∃ c, els[k]? = some (.inl c) ∧ Item x idx (.inl c) := by
    intro idx k hk
    obtain ⟨e, h4, h5⟩ := h3 idx k hk
    obtain ⟨c, rfl⟩ := hx.item h5
    exact ⟨c, h4, h5⟩
  refine ⟨els, by rw [npArrayNum, h1], h2, h4, ?_⟩
  intro e he
  obtain ⟨k, hk, rfl⟩ := List.getElem_of_mem he
  obtain ⟨idx, hi⟩ := rowMajor_surj s k (h2 ▸ hk)
  obtain ⟨c, h5, h6⟩ := h4 idx k hi
  rw [List.getElem?_eq_getElem hk] at h5
  exact ⟨idx, c, by simpa using h5, h6⟩

theorem dtypeOf_int64 {x : Nest Num} {els : List Cell} (h : AllNums Int64 x) (hne : els ≠ [])
    (he : ∀ e ∈ els, ∃ idx c, e = Sum.inl c ∧ Item x idx (.inl c)) : dtypeOf els = .i64 := by
  refine dtypeOf_i64 els hne fun e h1 => ?_
  obtain ⟨idx, c, rfl, h2⟩ := he e h1
  obtain ⟨z, rfl, h3⟩ := h idx c h2
  show (if -(2 ^ 63) ≤ z ∧ z < 2 ^ 63 then DType.i64 else _) = _
  rw [if_pos h3]

theorem fSingle_ends (m : Mode) (l r : Num) (sortQ : Bool) : ∃ X, fSingle m l r sortQ false = .ok X ∧ EndsOf sortQ l r X := by
  cases sortQ with
  | true =>
    by_cases h : r.lt l = true
    · exact ⟨⟨.classical, r, l⟩, by simp [fSingle, h], rfl, Or.inl ⟨h, rfl, rfl⟩⟩
    · exact ⟨⟨.classical, l, r⟩, by simp [fSingle, h], rfl, Or.inr ⟨by simpa [Num.lt] using h, rfl, rfl⟩⟩
  | false =>
    by_cases h : l.le r = true
    · exact ⟨⟨.classical, l, r⟩, by simp [fSingle, h], rfl, rfl, by simpa [Num.le] using h⟩
    · exact ⟨⟨.kaucher, l, r⟩, by simp [fSingle, h], rfl, rfl, by simpa [Num.le] using h⟩

theorem EndsOf.congr {sortQ : Bool} {l r l' r' : Num} {X : FIv} (h : EndsOf sortQ l' r' X) (hl : l'.val = l.val)
    (hr : r'.val = r.val) : EndsOf sortQ l r X := by
  unfold EndsOf at h ⊢
  rw [← hl, ← hr]
  exact h

theorem buildArr_ok (m : Mode) (sortQ : Bool) (s : List ℕ) (ps : List (Num × Num)) (h : ps ≠ []) :
    ∃ data, buildArr m sortQ false s (ps.map fun p => (Sum.inl p.1, Sum.inl p.2)) = .ok (.arr s data) ∧
      data.length = ps.length ∧ ∀ (k : ℕ) (p : Num × Num), ps[k]? = some p → ∃ X, data[k]? = some X ∧ EndsOf sortQ p.1 p.2 X := by
  obtain ⟨l, h1, h2, h3⟩ := mapM_get (cellSingle m sortQ false) (ps.map fun p => (Sum.inl p.1, Sum.inl p.2)) (by
    intro x hx
    obtain ⟨p, _, rfl⟩ := List.mem_map.mp hx
    obtain ⟨X, hX, _⟩ := fSingle_ends m p.1 p.2 sortQ
    exact ⟨X, hX⟩)
  refine ⟨l, by rw [buildArr, if_neg (by simpa using h), h1], by simpa using h2, fun k p hp => ?_⟩
  obtain ⟨w, h4, h5⟩ := h3 k (Sum.inl p.1, Sum.inl p.2) (by simp [hp])
  obtain ⟨X, h6, h7⟩ := fSingle_ends m p.1 p.2 sortQ
  have : cellSingle m sortQ false (Sum.inl p.1, Sum.inl p.2) = .ok X := h6
  rw [this] at h5
  cases h5
  exact ⟨_, h4, h7⟩

/-! ## C103: `Interval(l, r)` of nested lists -/

/-- C103 (full statement, false of the code): for two nested lists of numbers of the same shape, `Interval(x, y)` is an
array of that shape whose ends at every multi-index are the numbers given there. -/
def C103_statement : Prop :=
  ∀ (xs : List (Nest Num)) (y : Nest Num) (s : List ℕ) (sortQ : Bool), Numeric (.seq xs) → Numeric y →
    HasShape (.seq xs) s → HasShape y s →
    ∃ data, interval2F .nearest (.seq xs) y sortQ false = .ok (.arr s data) ∧ data.length = cells s ∧
      ∀ idx k, rowMajorIdx s idx = some k → ∃ l r X, Item (.seq xs) idx (.inl l) ∧ Item y idx (.inl r) ∧
        data[k]? = some X ∧ EndsOf sortQ l r X

theorem interval2F_eq (m : Mode) (xs : List (Nest Num)) (y : Nest Num) (s t : List ℕ) (d e : DType) (ls rs : List Cell)
    (sortQ q : Bool) (h1 : npArrayNum (.seq xs) = some (s, d, ls)) (h2 : npArrayNum y = some (t, e, rs)) :
    interval2F m (.seq xs) y sortQ q = if s = t then buildArr m sortQ q s
      ((ls.map (Cell.castTo (d.promote e))).zip (rs.map (Cell.castTo (d.promote e)))) else .error .valueError := by
  have : interval2F m (.seq xs) y sortQ q = match npArrayNum (.seq xs), npArrayNum y with
      | some (s, d, ls), some (t, e, rs) =>
          if s = t then
            buildArr m sortQ q s ((ls.map (Cell.castTo (d.promote e))).zip (rs.map (Cell.castTo (d.promote e))))
          else .error .valueError
      | _, _ => .error .valueError := by
    cases y <;> rfl
  rw [this, h1, h2]

/-- What the two-argument form stores: at every multi-index the given numbers after at most one rounding to the nearest
double; the rounding is the identity for lists of 64-bit integers. -/
theorem interval2F_main (m : Mode) (xs : List (Nest Num)) (y : Nest Num) (s : List ℕ) (sortQ : Bool)
    (hx : Numeric (.seq xs)) (hy : Numeric y) (hsx : HasShape (.seq xs) s) (hsy : HasShape y s) :
    ∃ data d e f, interval2F m (.seq xs) y sortQ false = .ok (.arr s data) ∧ data.length = cells s ∧
      (∀ idx k, rowMajorIdx s idx = some k → ∃ l r X, Item (.seq xs) idx (.inl l) ∧ Item y idx (.inl r) ∧
        data[k]? = some X ∧ EndsOf sortQ ((l.castTo d).castTo f) ((r.castTo e).castTo f) X) ∧
      (AllNums Int64 (.seq xs) → AllNums Int64 y → d = .i64 ∧ e = .i64 ∧ f = .i64) := by
  obtain ⟨els, a1, a2, a3, a4⟩ := npArrayNum_ok hx hsx
  obtain ⟨ers, b1, b2, b3, b4⟩ := npArrayNum_ok hy hsy
  have hpos := hx.cells_pos hsx
  have hnum : ∀ (z : Nest Num) (l : List Cell), (∀ e ∈ l, ∃ idx c, e = Sum.inl c ∧ Item z idx (.inl c)) →
      ∃ ns : List Num, l = ns.map Sum.inl := by
    intro z l
    induction l with
    | nil => intro _; exact ⟨[], rfl⟩
    | cons e l ih =>
      intro h
      obtain ⟨ns, rfl⟩ := ih fun e he => h e (by simp [he])
      obtain ⟨_, c, rfl, _⟩ := h e (by simp)
      exact ⟨c :: ns, rfl⟩
  obtain ⟨ns, rfl⟩ := hnum _ _ a4
  obtain ⟨ms, rfl⟩ := hnum _ _ b4
  have q1 := fun h => dtypeOf_int64 (x := .seq xs) h (by intro h0; rw [h0] at a2; simp at a2; omega) a4
  have q2 := fun h => dtypeOf_int64 (x := y) h (by intro h0; rw [h0] at b2; simp at b2; omega) b4
  generalize dtypeOf (ns.map Sum.inl) = d at *
  generalize dtypeOf (ms.map Sum.inl) = e at *
  simp only [List.length_map] at a2 b2
  obtain ⟨data, c1, c2, c3⟩ := buildArr_ok m sortQ s ((ns.zip ms).map fun p =>
      ((p.1.castTo d).castTo (d.promote e), (p.2.castTo e).castTo (d.promote e))) (by
    intro h0
    have := congrArg List.length h0
    simp [a2, b2] at this
    omega)
  refine ⟨data, d, e, d.promote e, ?_, ?_, ?_, fun h1 h2 => ?_⟩
  · rw [interval2F_eq m xs y s s _ _ _ _ sortQ false a1 b1, if_pos rfl, ← c1]
    congr 1
    simp only [List.map_map, List.zip_map', List.zip_map]
    rfl
  · rw [c2]; simp [a2, b2]
  · intro idx k hk
    obtain ⟨l, d1, d2⟩ := a3 idx k hk
    obtain ⟨r, e1, e2⟩ := b3 idx k hk
    simp only [List.getElem?_map, Option.map_eq_some_iff, Sum.inl.injEq, exists_eq_right] at d1 e1
    obtain ⟨X, f1, f2⟩ := c3 k _ (by
      rw [List.getElem?_map, List.getElem?_zip_eq_some.mpr (by exact ⟨d1, e1⟩ : ns[k]? = some (l, r).1 ∧ ms[k]? = some (l, r).2)]
      rfl)
    exact ⟨l, r, X, d2, e2, f1, f2⟩
  · rw [q1 h1, q2 h2]
    exact ⟨rfl, rfl, rfl⟩

/-- C103, partial: the ends are kept when all numbers are floats or integers of at most 53 bits, and when all are
integers of 64 bits; any combination of these with other integers may round, see `C103_ends_false`. -/
theorem C103_ends_partial (m : Mode) (xs : List (Nest Num)) (y : Nest Num) (s : List ℕ) (sortQ : Bool)
    (hx : Numeric (.seq xs)) (hy : Numeric y) (hsx : HasShape (.seq xs) s) (hsy : HasShape y s)
    (h : (AllNums SmallInt (.seq xs) ∧ AllNums SmallInt y) ∨ (AllNums Int64 (.seq xs) ∧ AllNums Int64 y)) :
    ∃ data, interval2F m (.seq xs) y sortQ false = .ok (.arr s data) ∧ data.length = cells s ∧
      ∀ idx k, rowMajorIdx s idx = some k → ∃ l r X, Item (.seq xs) idx (.inl l) ∧ Item y idx (.inl r) ∧
        data[k]? = some X ∧ EndsOf sortQ l r X := by
  obtain ⟨data, d, e, f, h1, h2, h3, h4⟩ := interval2F_main m xs y s sortQ hx hy hsx hsy
  refine ⟨data, h1, h2, fun idx k hk => ?_⟩
  obtain ⟨l, r, X, g1, g2, g3, g4⟩ := h3 idx k hk
  refine ⟨l, r, X, g1, g2, g3, ?_⟩
  rcases h with ⟨p1, p2⟩ | ⟨p1, p2⟩
  · exact g4.congr (castTo_small (p1 idx l g1)) (castTo_small (p2 idx r g2))
  · obtain ⟨rfl, rfl, rfl⟩ := h4 p1 p2
    exact g4.congr rfl rfl

/-- In general every stored end is the number given or, for an integer, its nearest double; other shapes are
rejected. -/
theorem C103_nearest (m : Mode) (xs : List (Nest Num)) (y : Nest Num) (s : List ℕ) (sortQ : Bool)
    (hx : Numeric (.seq xs)) (hy : Numeric y) (hsx : HasShape (.seq xs) s) :
    (HasShape y s → ∃ data, interval2F m (.seq xs) y sortQ false = .ok (.arr s data) ∧ data.length = cells s ∧
      ∀ idx k, rowMajorIdx s idx = some k → ∃ l r l' r' X, Item (.seq xs) idx (.inl l) ∧ Item y idx (.inl r) ∧
        Kept l l' ∧ Kept r r' ∧ data[k]? = some X ∧ EndsOf sortQ l' r' X) ∧
    (¬ HasShape y s → interval2F m (.seq xs) y sortQ false = .error .valueError) := by
  refine ⟨fun hsy => ?_, fun hsy => ?_⟩
  · obtain ⟨data, d, e, f, h1, h2, h3, _⟩ := interval2F_main m xs y s sortQ hx hy hsx hsy
    refine ⟨data, h1, h2, fun idx k hk => ?_⟩
    obtain ⟨l, r, X, g1, g2, g3, g4⟩ := h3 idx k hk
    exact ⟨l, r, _, _, X, g1, g2, castTo_twice d f l, castTo_twice e f r, g3, g4⟩
  · obtain ⟨els, a1, _⟩ := npArrayNum_ok hx hsx
    cases hn : npAsarray y with
    | none =>
      have h2 : npArrayNum y = none := by rw [npArrayNum, hn]
      have : interval2F m (.seq xs) y sortQ false = match npArrayNum (.seq xs), npArrayNum y with
          | some (s, d, ls), some (t, e, rs) =>
              if s = t then
                buildArr m sortQ false s ((ls.map (Cell.castTo (d.promote e))).zip (rs.map (Cell.castTo (d.promote e))))
              else .error .valueError
          | _, _ => .error .valueError := by
        cases y <;> rfl
      rw [this, a1, h2]
    | some p =>
      obtain ⟨t, els'⟩ := p
      have h2 : npArrayNum y = some (t, dtypeOf els', els'.map (Cell.castTo (dtypeOf els'))) := by rw [npArrayNum, hn]
      rw [interval2F_eq m xs y s t _ _ _ _ sortQ false a1 h2, if_neg]
      rintro rfl
      exact hsy (npAsarray_shape y s els' hn)

/-- `[9007199254740993, 0.5]`. -/
def mixedL : List (Nest Num) := [.num (.int (2 ^ 53 + 1)), .num (.dbl (.fin (1 / 2)))]

theorem mixed_run : interval2F .nearest (.seq mixedL) (.seq mixedL) true false =
    .ok (.arr [2] [⟨.classical, .dbl (.fin (2 ^ 53)), .dbl (.fin (2 ^ 53))⟩,
      ⟨.classical, .dbl (.fin (1 / 2)), .dbl (.fin (1 / 2))⟩]) := by decide +kernel

theorem mixed_numeric : Numeric (.seq mixedL) ∧ HasShape (.seq mixedL) [2] := by
  refine ⟨.seq _ _ ?_, .seq _ _ [] ?_⟩
  · intro y hy
    simp only [List.mem_cons, List.not_mem_nil, or_false] at hy
    rcases hy with rfl | rfl <;> exact .num _
  · intro y hy
    simp only [List.mem_cons, List.not_mem_nil, or_false] at hy
    rcases hy with rfl | rfl <;> exact .num _

/-- C103 is false of the code: `Interval([9007199254740993, 0.5], [9007199254740993, 0.5])` holds
`[9007199254740992.0, 9007199254740992.0]`, which does not contain the number given, because the float in the list
makes `np.array` round the integers. -/
theorem C103_ends_false : ¬ C103_statement ∧
    interval2F .nearest (.seq mixedL) (.seq mixedL) true false =
      .ok (.arr [2] [⟨.classical, .dbl (.fin (2 ^ 53)), .dbl (.fin (2 ^ 53))⟩,
        ⟨.classical, .dbl (.fin (1 / 2)), .dbl (.fin (1 / 2))⟩]) := by
  refine ⟨fun h => ?_, mixed_run⟩
  obtain ⟨h1, h2⟩ := mixed_numeric
  obtain ⟨data, e1, e2, e3⟩ := h mixedL (.seq mixedL) [2] true h1 h1 h2 h2
  rw [mixed_run] at e1
  cases e1
  obtain ⟨l, r, X, f1, f2, f3, f4⟩ := e3 [0] 0 rfl
  cases f3
  cases f1 with
  | seq _ _ _ x _ g1 g2 =>
    cases g1
    cases g2
    cases f2 with
    | seq _ _ _ y _ g3 g4 =>
      cases g3
      cases g4
      unfold EndsOf at f4
      rw [if_pos rfl] at f4
      simp only [Num.val, Dbl.fin.injEq] at f4
      rcases f4.2 with f | f <;> · have := f.2.1; norm_num at this

/-- The hypotheses of the partial results hold for a nested list of both kinds. -/
example : ∃ data, interval2F .nearest (.seq [.seq [.num (.int 3)], .seq [.num (.dbl (.fin (1 / 2)))]])
    (.seq [.seq [.num (.int 1)], .seq [.num (.int 7)]]) true false = .ok (.arr [2, 1] data) ∧
    data = [⟨.classical, .dbl (.fin 1), .dbl (.fin 3)⟩, ⟨.classical, .dbl (.fin (1 / 2)), .dbl (.fin 7)⟩] :=
  ⟨_, by decide +kernel, rfl⟩

/-! ## C105: `Interval(list)` -/

theorem firstTwo_get (k : ℕ) (hk : 2 ≤ k) : ∀ (n : ℕ) (d : List Cell), d.length = n * k →
    (firstTwo k n d).length = n ∧ ∀ (i : ℕ) (x y : Cell), i < n → d[i * k]? = some x → d[i * k + 1]? = some y →
      (firstTwo k n d)[i]? = some (x, y)
  | 0, d, h => ⟨by simp [firstTwo], fun i _ _ hi => absurd hi (by omega)⟩
  | n + 1, d, h => by
    match d, h with
    | [], h => simp at h; omega
    | [_], h => simp at h; nlinarith
    | x :: y :: d, h =>
      obtain ⟨h1, h2⟩ := firstTwo_get k hk n ((x :: y :: d).drop k) (by
        rw [List.length_drop, h, add_mul, one_mul, Nat.add_sub_cancel])
      refine ⟨by rw [firstTwo, List.length_cons, h1], ?_⟩
      rintro (_ | i) a b hi ha hb
      · rw [zero_mul] at ha
        rw [zero_mul, zero_add] at hb
        simp only [List.getElem?_cons_zero, Option.some.injEq, List.getElem?_cons_succ] at ha hb
        rw [firstTwo, ha, hb]
        rfl
      · rw [firstTwo, List.getElem?_cons_succ]
        refine h2 i a b (by omega) ?_ ?_
        · rw [List.getElem?_drop, ← ha]; congr 1; ring
        · rw [List.getElem?_drop, ← hb]; congr 1; ring

/-- C105 (full statement, false of the code): when `Interval(xs)` returns an array, every number of the list is one of
the ends of the interval at its position. -/
def C105_statement : Prop :=
  ∀ (xs : List (Nest Num)) (sortQ : Bool) (s : List ℕ) (data : List FIv), Numeric (.seq xs) →
    AllNums SmallInt (.seq xs) → interval1F .nearest xs sortQ false = .ok (.arr s data) →
    ∀ idx j c, Item (.seq xs) (idx ++ [j]) (.inl c) →
      ∃ k X, rowMajorIdx s idx = some k ∧ data[k]? = some X ∧ (X.a.val = c.val ∨ X.b.val = c.val)

theorem interval1F_eq (m : Mode) (xs : List (Nest Num)) (sortQ q : Bool) (h : ∀ l r, xs ≠ [.num l, .num r]) :
    interval1F m xs sortQ q = match npArrayNum (.seq xs) with
      | none => .error .valueError
      | some (sh, _, data) =>
          if sh.getLastD 0 < 2 then .error .indexError
          else buildArr m sortQ q sh.dropLast
            (firstTwo (sh.getLastD 0) (data.length / sh.getLastD 0) data) := by
  unfold interval1F
  split
  · exact absurd rfl (h _ _)
  · rfl

/-- What the one-argument form stores for a list of any depth whose last axis has at least two entries: the first two
entries along the last axis, after at most one rounding to the nearest double; two numbers alone give a scalar
interval, a shorter last axis `IndexError`, a list without a shape `ValueError`. -/
theorem C105_reads (m : Mode) (xs : List (Nest Num)) (sortQ : Bool) (hx : Numeric (.seq xs)) :
    (∀ l r, xs = [.num l, .num r] → ∃ X, interval1F m xs sortQ false = .ok (.iv X) ∧ EndsOf sortQ l r X) ∧
    ((∀ l r, xs ≠ [.num l, .num r]) →
      (∀ s k, HasShape (.seq xs) (s ++ [k]) → 2 ≤ k →
        ∃ data d, interval1F m xs sortQ false = .ok (.arr s data) ∧ data.length = cells s ∧
          (∀ idx p, rowMajorIdx s idx = some p → ∃ l r X, Item (.seq xs) (idx ++ [0]) (.inl l) ∧
            Item (.seq xs) (idx ++ [1]) (.inl r) ∧ data[p]? = some X ∧ EndsOf sortQ (l.castTo d) (r.castTo d) X) ∧
          (AllNums Int64 (.seq xs) → d = .i64)) ∧
      (∀ s k, HasShape (.seq xs) (s ++ [k]) → k < 2 → interval1F m xs sortQ false = .error .indexError) ∧
      ((∀ s, ¬ HasShape (.seq xs) s) → interval1F m xs sortQ false = .error .valueError)) := by
  refine ⟨?_, fun hne => ⟨fun s k hs hk => ?_, fun s k hs hk => ?_, fun hn => ?_⟩⟩
  · rintro l r rfl
    obtain ⟨X, h1, h2⟩ := fSingle_ends m l r sortQ
    exact ⟨X, by simp only [interval1F, h1]; rfl, h2⟩
  · obtain ⟨els, a1, a2, a3, a4⟩ := npArrayNum_ok hx hs
    have hpos := hx.cells_pos hs
    have q1 := fun h => dtypeOf_int64 (x := .seq xs) h (by intro h0; rw [h0] at a2; simp at a2; omega) a4
    rw [cells_snoc] at a2 hpos
    generalize dtypeOf els = d at *
    have hlen : (els.map (Cell.castTo d)).length = cells s * k := by rw [List.length_map, a2]
    obtain ⟨f1, f2⟩ := firstTwo_get k hk (cells s) (els.map (Cell.castTo d)) hlen
    have hent : ∀ p, p < cells s → ∃ idx l r, rowMajorIdx s idx = some p ∧ Item (.seq xs) (idx ++ [0]) (.inl l) ∧
        Item (.seq xs) (idx ++ [1]) (.inl r) ∧
        (firstTwo k (cells s) (els.map (Cell.castTo d)))[p]? = some (.inl (l.castTo d), .inl (r.castTo d)) := by
      intro p hp
      obtain ⟨idx, hi⟩ := rowMajor_surj s p hp
      obtain ⟨l, b1, b2⟩ := a3 _ _ (rowMajor_snoc s idx p k 0 hi (by omega))
      obtain ⟨r, b3, b4⟩ := a3 _ _ (rowMajor_snoc s idx p k 1 hi (by omega))
      rw [add_zero] at b1
      exact ⟨idx, l, r, hi, b2, b4, f2 p _ _ hp (by rw [List.getElem?_map, b1]; rfl) (by rw [List.getElem?_map, b3]; rfl)⟩
    have hns : ∃ ns : List (Num × Num), firstTwo k (cells s) (els.map (Cell.castTo d)) =
        ns.map fun p => (Sum.inl p.1, Sum.inl p.2) := by
      have : ∀ q ∈ firstTwo k (cells s) (els.map (Cell.castTo d)), ∃ p : Num × Num, (Sum.inl p.1, Sum.inl p.2) = q := by
        intro q hq
        obtain ⟨i, hi, rfl⟩ := List.getElem_of_mem hq
        obtain ⟨_, l, r, _, _, _, g⟩ := hent i (by rw [← f1]; exact hi)
        rw [List.getElem?_eq_getElem hi] at g
        exact ⟨(l.castTo d, r.castTo d), by simpa using g.symm⟩
      generalize firstTwo k (cells s) (els.map (Cell.castTo d)) = qs at this
      induction qs with
      | nil => exact ⟨[], rfl⟩
      | cons q qs ih =>
        obtain ⟨ns, rfl⟩ := ih fun q' h' => this q' (by simp [h'])
        obtain ⟨p, rfl⟩ := this q (by simp)
        exact ⟨p :: ns, rfl⟩
    obtain ⟨ns, hns⟩ := hns
    rw [hns] at f1 hent
    simp only [List.length_map] at f1
    obtain ⟨data, c1, c2, c3⟩ := buildArr_ok m sortQ s ns (by
      rintro rfl
      simp at f1
      rw [← f1] at hpos
      simp at hpos)
    refine ⟨data, d, ?_, by rw [c2, f1], fun idx p hp => ?_, q1⟩
    · rw [interval1F_eq m xs sortQ false hne, a1]
      have e1 : (s ++ [k]).getLastD 0 = k := by simp
      simp only [e1, if_neg (not_lt.mpr hk), hlen, Nat.mul_div_cancel _ (by omega : 0 < k), List.dropLast_concat, hns]
      exact c1
    · obtain ⟨l, b1, b2⟩ := a3 _ _ (rowMajor_snoc s idx p k 0 hp (by omega))
      obtain ⟨r, b3, b4⟩ := a3 _ _ (rowMajor_snoc s idx p k 1 hp (by omega))
      rw [add_zero] at b1
      have hg := f2 p _ _ (rowMajorIdx_lt hp) (by rw [List.getElem?_map, b1]; rfl) (by rw [List.getElem?_map, b3]; rfl)
      rw [hns, List.getElem?_map] at hg
      obtain ⟨q, hq, hq'⟩ := Option.map_eq_some_iff.mp hg
      obtain ⟨X, g1, g2⟩ := c3 p q hq
      refine ⟨l, r, X, b2, b4, g1, ?_⟩
      have e2 : q = (l.castTo d, r.castTo d) := by
        obtain ⟨q1, q2⟩ := q
        simp only [Prod.mk.injEq] at hq'
        have h1 := hq'.1
        have h2 := hq'.2
        cases h1
        cases h2
        rfl
      rw [e2] at g2
      exact g2
  · obtain ⟨els, a1, _⟩ := npArrayNum_ok hx hs
    rw [interval1F_eq m xs sortQ false hne, a1]
    have e1 : (s ++ [k]).getLastD 0 = k := by simp
    simp only [e1, if_pos hk]
  · rw [interval1F_eq m xs sortQ false hne]
    cases h : npAsarray (.seq xs) with
    | none => rw [npArrayNum, h]
    | some p => exact absurd (npAsarray_shape _ p.1 p.2 h) (hn _)

theorem Numeric.item_unique {K : Type*} {x : Nest K} (h : Numeric x) : ∀ {idx : List ℕ} {e f : K ⊕ Iv K}, Item x idx e →
    Item x idx f → e = f := by
  induction h with
  | num c =>
    intro idx e f he hf
    cases he
    cases hf
    rfl
  | seq x xs _ ih =>
    intro idx e f he hf
    cases he with
    | seq _ i is y e h1 h2 =>
      cases hf with
      | seq _ _ _ z _ h3 h4 =>
        rw [h1] at h3
        cases h3
        exact ih y (List.mem_of_getElem? h1) h2 h4

theorem Numeric.item_pos {K : Type*} {x : Nest K} (h : Numeric x) : ∀ {s idx : List ℕ} {e : K ⊕ Iv K}, HasShape x s →
    Item x idx e → ∃ k, rowMajorIdx s idx = some k := by
  induction h with
  | num c =>
    intro s idx e hs he
    cases he
    cases hs
    exact ⟨0, rfl⟩
  | seq x xs _ ih =>
    intro s idx e hs he
    cases he with
    | seq _ i is y e h1 h2 =>
      cases hs with
      | seq _ _ t ht =>
        have hm := List.mem_of_getElem? h1
        obtain ⟨k, hk⟩ := ih y hm (ht y hm) h2
        obtain ⟨hi, _⟩ := List.getElem?_eq_some_iff.mp h1
        simp only [List.length_cons] at hi
        exact ⟨i * cells t + k, by simp [rowMajorIdx, hi, hk]⟩

theorem rowMajor_snoc_inv : ∀ (s idx : List ℕ) (q k j : ℕ), rowMajorIdx (s ++ [k]) (idx ++ [j]) = some q →
    j < k ∧ ∃ p, rowMajorIdx s idx = some p
  | [], [], q, k, j, h => by
    simp only [List.nil_append, rowMajorIdx] at h
    split_ifs at h with hj
    exact ⟨hj, 0, rfl⟩
  | [], i :: is, q, k, j, h => by
    simp only [List.nil_append, List.cons_append, rowMajorIdx] at h
    split_ifs at h with hi
    have : rowMajorIdx [] (is ++ [j]) = none := by cases is <;> rfl
    rw [this] at h
    cases h
  | n :: s, [], q, k, j, h => by
    simp only [List.nil_append, List.cons_append, rowMajorIdx] at h
    split_ifs at h with hi
    have : rowMajorIdx (s ++ [k]) [] = none := by cases s <;> rfl
    rw [this] at h
    cases h
  | n :: s, i :: is, q, k, j, h => by
    simp only [List.cons_append, rowMajorIdx] at h
    split_ifs at h with hi
    cases hr : rowMajorIdx (s ++ [k]) (is ++ [j]) with
    | none => rw [hr] at h; cases h
    | some r =>
      obtain ⟨h1, p, h2⟩ := rowMajor_snoc_inv s is r k j hr
      exact ⟨h1, i * cells s + p, by simp [rowMajorIdx, hi, h2]⟩

/-- C105, partial: no number is ignored when the last axis has two entries; the numbers are kept as described in C103.
Missing: longer last axes, see `C105_ignored_false`. -/
theorem C105_pairs_partial (m : Mode) (xs : List (Nest Num)) (sortQ : Bool) (hx : Numeric (.seq xs)) (s : List ℕ)
    (hs0 : s ≠ []) (hs : HasShape (.seq xs) (s ++ [2])) (h : AllNums SmallInt (.seq xs) ∨ AllNums Int64 (.seq xs)) :
    ∃ data, interval1F m xs sortQ false = .ok (.arr s data) ∧ data.length = cells s ∧
      (∀ idx p, rowMajorIdx s idx = some p → ∃ l r X, Item (.seq xs) (idx ++ [0]) (.inl l) ∧
        Item (.seq xs) (idx ++ [1]) (.inl r) ∧ data[p]? = some X ∧ EndsOf sortQ l r X) ∧
      ∀ idx j c, Item (.seq xs) (idx ++ [j]) (.inl c) →
        ∃ k X, rowMajorIdx s idx = some k ∧ data[k]? = some X ∧ (X.a.val = c.val ∨ X.b.val = c.val) := by
  have hne : ∀ l r, xs ≠ [.num l, .num r] := by
    rintro l r rfl
    have h1 : HasShape (.seq [.num l, .num r]) ([] ++ [2]) := .seq _ _ [] (by
      intro y hy
      simp only [List.mem_cons, List.not_mem_nil, or_false] at hy
      rcases hy with rfl | rfl <;> exact .num _)
    have := HasShape.unique_num hx hs h1
    exact hs0 (List.append_cancel_right this)
  obtain ⟨data, d, h1, h2, h3, h4⟩ := ((C105_reads m xs sortQ hx).2 hne).1 s 2 hs le_rfl
  have hv : ∀ idx c, Item (.seq xs) idx (.inl c) → (c.castTo d).val = c.val := by
    intro idx c hc
    rcases h with h | h
    · have := castTo_small (d := d) (e := .obj) (h idx c hc)
      rwa [show ((c.castTo d).castTo .obj) = c.castTo d by rfl] at this
    · rw [h4 h]
      rfl
  have h5 : ∀ idx p, rowMajorIdx s idx = some p → ∃ l r X, Item (.seq xs) (idx ++ [0]) (.inl l) ∧
        Item (.seq xs) (idx ++ [1]) (.inl r) ∧ data[p]? = some X ∧ EndsOf sortQ l r X := by
    intro idx p hp
    obtain ⟨l, r, X, g1, g2, g3, g4⟩ := h3 idx p hp
    exact ⟨l, r, X, g1, g2, g3, g4.congr (hv _ _ g1) (hv _ _ g2)⟩
  refine ⟨data, h1, h2, h5, fun idx j c hc => ?_⟩
  obtain ⟨q, hq⟩ := hx.item_pos hs hc
  obtain ⟨hj, p, hp⟩ := rowMajor_snoc_inv s idx q 2 j hq
  obtain ⟨l, r, X, g1, g2, g3, g4⟩ := h5 idx p hp
  refine ⟨p, X, hp, g3, ?_⟩
  have hends : (X.a.val = l.val ∧ X.b.val = r.val) ∨ (X.a.val = r.val ∧ X.b.val = l.val) := by
    unfold EndsOf at g4
    split_ifs at g4
    · rcases g4.2 with g | g
      · exact Or.inr g.2
      · exact Or.inl g.2
    · exact Or.inl ⟨g4.1, g4.2.1⟩
  obtain rfl | rfl : j = 0 ∨ j = 1 := by omega
  · have := hx.item_unique hc g1
    cases this
    rcases hends with e | e
    · exact Or.inl e.1
    · exact Or.inr e.2
  · have := hx.item_unique hc g2
    cases this
    rcases hends with e | e
    · exact Or.inr e.2
    · exact Or.inl e.1

/-- C105 is false of the code: `Interval([5, 7, 9])` is an array without axes that holds `[5, 7]`, and
`Interval([[1, 2, 3], [4, 5, 6]])` holds `[1, 2]` and `[4, 5]`. -/
theorem C105_ignored_false : ¬ C105_statement ∧
    interval1F .nearest [.num (.int 5), .num (.int 7), .num (.int 9)] true false =
      .ok (.arr [] [⟨.classical, .int 5, .int 7⟩]) ∧
    interval1F .nearest [.seq [.num (.int 1), .num (.int 2), .num (.int 3)],
        .seq [.num (.int 4), .num (.int 5), .num (.int 6)]] true false =
      .ok (.arr [2] [⟨.classical, .int 1, .int 2⟩, ⟨.classical, .int 4, .int 5⟩]) := by
  have e1 : interval1F .nearest [.num (.int 5), .num (.int 7), .num (.int 9)] true false =
      .ok (.arr [] [⟨.classical, .int 5, .int 7⟩]) := by decide +kernel
  refine ⟨fun h => ?_, e1, by decide +kernel⟩
  have hx : Numeric (.seq [.num (.int 5), .num (.int 7), .num (.int 9)] : Nest Num) := .seq _ _ (by
    intro y hy
    simp only [List.mem_cons, List.not_mem_nil, or_false] at hy
    rcases hy with rfl | rfl | rfl <;> exact .num _)
  obtain ⟨k, X, h1, h2, h3⟩ := h _ true [] _ hx (by
    intro idx c hc z hz
    cases hc with
    | seq _ i is y e g1 g2 =>
      have := List.mem_of_getElem? g1
      simp only [List.mem_cons, List.not_mem_nil, or_false] at this
      rcases this with rfl | rfl | rfl <;> cases g2 <;> cases hz <;> norm_num) e1 [] 2 (.int 9)
      (.seq _ 2 [] _ _ rfl (.num _))
  cases h1
  cases h2
  simp [Num.val] at h3

/-- The hypotheses of `C105_pairs_partial` hold for a list of two pairs. -/
example : HasShape (.seq [.seq [.num (.int 1), .num (.int 3)], .seq [.num (.int 4), .num (.int 2)]] : Nest Num)
    ([2] ++ [2]) ∧
    interval1F .nearest [.seq [.num (.int 1), .num (.int 3)], .seq [.num (.int 4), .num (.int 2)]] false false =
      .ok (.arr [2] [⟨.classical, .int 1, .int 3⟩, ⟨.kaucher, .int 4, .int 2⟩]) := by
  refine ⟨.seq _ _ [2] ?_, by decide +kernel⟩
  intro y hy
  simp only [List.mem_cons, List.not_mem_nil, or_false] at hy
  rcases hy with rfl | rfl
  · refine .seq _ _ [] ?_
    intro y hy
    simp only [List.mem_cons, List.not_mem_nil, or_false] at hy
    rcases hy with rfl | rfl <;> exact .num _
  · refine .seq _ _ [] ?_
    intro y hy
    simp only [List.mem_cons, List.not_mem_nil, or_false] at hy
    rcases hy with rfl | rfl <;> exact .num _

/-! ## C104: midpoint-radius form -/

/-- C104 (full statement, false of the code): `Interval(c, r, midRadQ=True)` contains all numbers at distance at most
`r` from `c`. -/
def C104_statement : Prop :=
  ∀ (c r : Num) (p q : ℚ) (sortQ : Bool), c.IsB64 p → r.IsB64 q → 0 ≤ q → |p| + q ≤ maxFin →
    ∃ X a b, interval2F .nearest (.num c) (.num r) sortQ true = .ok (.iv X) ∧ X.cls = .classical ∧
      X.a.val = .fin a ∧ X.b.val = .fin b ∧ ∀ t, |t - p| ≤ q → a ≤ t ∧ t ≤ b

theorem num_addsub {c r : Num} {p q : ℚ} (hc : c.IsB64 p) (hr : r.IsB64 q) (hq : 0 ≤ q) (h : |p| + q ≤ maxFin) :
    ∃ s t a b, Num.sub .nearest c r = .ok s ∧ Num.add .nearest c r = .ok t ∧ s.val = .fin a ∧ t.val = .fin b ∧
      (((∃ z w, c = .int z ∧ r = .int w) ∧ a = p - q ∧ b = p + q) ∨ (a = nearTo (p - q) ∧ b = nearTo (p + q))) := by
  by_cases hi : ∃ z w, c = .int z ∧ r = .int w
  · obtain ⟨z, w, rfl, rfl⟩ := hi
    have e1 : (z : ℚ) = p := by simpa [Num.val] using hc.1
    have e2 : (w : ℚ) = q := by simpa [Num.val] using hr.1
    exact ⟨.int (z - w), .int (z + w), p - q, p + q, rfl, rfl, by simp [Num.val, ← e1, ← e2],
      by simp [Num.val, ← e1, ← e2], Or.inl ⟨⟨z, w, rfl, rfl⟩, rfl, rfl⟩⟩
  · have h1 : |p - q| ≤ maxFin := (abs_sub p q).trans (by rwa [abs_of_nonneg hq])
    have h2 : |p + q| ≤ maxFin := (abs_add_le p q).trans (by rwa [abs_of_nonneg hq])
    obtain ⟨s, s1, s2⟩ := sub_near hc hr h1
    obtain ⟨t, t1, t2⟩ := add_near hc hr h2
    have hd : ∀ {f : Dbl → Dbl → Except Err Dbl} {v : Num}, Num.viaDbl f c r = .ok v → ∃ d, v = .dbl d := by
      intro f v hv
      simp only [Num.viaDbl, hc.toDbl, hr.toDbl] at hv
      cases hf : f (.fin p) (.fin q) with
      | error e => simp [bind, Except.bind, hf] at hv
      | ok d =>
        simp [bind, Except.bind, hf, pure, Except.pure] at hv
        exact ⟨d, hv.symm⟩
    have hs : ∃ d, s = .dbl d := by
      refine hd (f := fun p q => .ok (Dbl.sub .nearest p q)) ?_
      rw [← s1]
      cases c <;> cases r <;> first | rfl | exact absurd ⟨_, _, rfl, rfl⟩ hi
    have ht : ∃ d, t = .dbl d := by
      refine hd (f := fun p q => .ok (Dbl.add .nearest p q)) ?_
      rw [← t1]
      cases c <;> cases r <;> first | rfl | exact absurd ⟨_, _, rfl, rfl⟩ hi
    obtain ⟨d1, rfl⟩ := hs
    obtain ⟨d2, rfl⟩ := ht
    cases s2
    cases t2
    exact ⟨_, _, _, _, s1, t1, rfl, rfl, Or.inr ⟨rfl, rfl⟩⟩

theorem le_zero_num {r : Num} {q : ℚ} (hr : r.IsB64 q) (hq : 0 ≤ q) : (Num.int 0).le r = true := by
  rw [Num.le, hr.1]
  simp only [Num.val, Dbl.le, Int.cast_zero, decide_eq_true_eq]
  exact hq

/-- The two ends of the midpoint-radius form: exact for integers, otherwise rounded to nearest; the interval is
classical, whatever `sortQ` is. -/
theorem C104_ends (c r : Num) (p q : ℚ) (sortQ : Bool) (hc : c.IsB64 p) (hr : r.IsB64 q) (hq : 0 ≤ q)
    (h : |p| + q ≤ maxFin) :
    ∃ X a b, interval2F .nearest (.num c) (.num r) sortQ true = .ok (.iv X) ∧ X.cls = .classical ∧ a ≤ b ∧
      X.a.val = .fin a ∧ X.b.val = .fin b ∧
      (((∃ z w, c = .int z ∧ r = .int w) ∧ a = p - q ∧ b = p + q) ∨ (a = nearTo (p - q) ∧ b = nearTo (p + q))) := by
  obtain ⟨s, t, a, b, h1, h2, h3, h4, h5⟩ := num_addsub hc hr hq h
  have hab : a ≤ b := by
    rcases h5 with ⟨_, rfl, rfl⟩ | ⟨rfl, rfl⟩
    · linarith
    · exact ((nearTo_le_ceilTo _).trans (ceilTo_le hc.2.1 (by linarith))).trans
        ((le_floorTo hc.2.1 (by linarith)).trans (floorTo_le_nearTo _))
  have h6 : t.lt s = false := by
    simp only [Num.lt, h3, h4, Dbl.lt, decide_eq_false_iff_not, not_lt]
    exact hab
  have h7 : s.le t = true := by
    simp only [Num.le, h3, h4, Dbl.le, decide_eq_true_eq]
    exact hab
  refine ⟨⟨.classical, s, t⟩, a, b, ?_, rfl, hab, h3, h4, h5⟩
  simp only [interval2F, fSingle, if_true, le_zero_num hr hq, h1, h2]
  cases sortQ <;> simp [h6, h7, Except.map]

/-- C104 is false of the code: `Interval(1, 2**-60, midRadQ=True)` is `[1, 1]`. -/
theorem C104_ball_false : ¬ C104_statement ∧
    interval2F .nearest (.num (.int 1)) (.num (.dbl (.fin (1 / 2 ^ 60)))) true true =
      .ok (.iv ⟨.classical, .dbl (.fin 1), .dbl (.fin 1)⟩) := by
  have e : interval2F .nearest (.num (.int 1)) (.num (.dbl (.fin (1 / 2 ^ 60)))) true true =
      .ok (.iv ⟨.classical, .dbl (.fin 1), .dbl (.fin 1)⟩) := by decide +kernel
  refine ⟨fun h => ?_, e⟩
  have hm := two53_le_maxFin
  have i1 : (Num.int 1).IsB64 1 := ⟨by simp [Num.val], by simpa using isF_int (K := ℚ) (z := 1) (by norm_num), by
    rw [abs_of_pos (by norm_num)]; norm_num at hm ⊢; linarith⟩
  have i2 : (Num.dbl (.fin (1 / 2 ^ 60))).IsB64 (1 / 2 ^ 60) := ⟨rfl, ⟨1, -60, by norm_num, by norm_num, by norm_num⟩, by
    rw [abs_of_pos (by norm_num)]; norm_num at hm ⊢; linarith⟩
  obtain ⟨X, a, b, h1, _, _, h4, h5⟩ := h _ _ 1 (1 / 2 ^ 60) true i1 i2 (by norm_num) (by
    rw [abs_of_pos (by norm_num)]; norm_num at hm ⊢; linarith)
  rw [e] at h1
  cases h1
  cases h4
  have := (h5 (1 + 1 / 2 ^ 60) (by norm_num)).2
  norm_num at this

/-- C104, exact condition when centre and radius are not both integers: the interval contains the ball exactly when
rounding to nearest moves neither end inwards. -/
theorem C104_ball_iff_partial (c r : Num) (p q : ℚ) (sortQ : Bool) (hc : c.IsB64 p) (hr : r.IsB64 q) (hq : 0 ≤ q)
    (h : |p| + q ≤ maxFin) (hn : ¬ ∃ z w, c = .int z ∧ r = .int w) :
    ∃ X a b, interval2F .nearest (.num c) (.num r) sortQ true = .ok (.iv X) ∧ X.cls = .classical ∧
      X.a.val = .fin a ∧ X.b.val = .fin b ∧
      ((∀ t, |t - p| ≤ q → a ≤ t ∧ t ≤ b) ↔ nearTo (p - q) ≤ p - q ∧ p + q ≤ nearTo (p + q)) := by
  obtain ⟨X, a, b, h1, h2, -, h3, h4, h5⟩ := C104_ends c r p q sortQ hc hr hq h
  rcases h5 with ⟨hi, -⟩ | ⟨rfl, rfl⟩
  · exact absurd hi hn
  · refine ⟨X, _, _, h1, h2, h3, h4, fun hb => ⟨(hb (p - q) ?_).1, (hb (p + q) ?_).2⟩, fun ⟨g1, g2⟩ t ht => ?_⟩
    · rw [show p - q - p = -q by ring, abs_neg, abs_of_nonneg hq]
    · rw [show p + q - p = q by ring, abs_of_nonneg hq]
    · rw [abs_le] at ht
      constructor <;> linarith

/-- C104, partial: the ball is covered when centre and radius are integers or `c - r` and `c + r` are doubles; in
general the ends miss by at most one rounding to nearest.  A radius that is negative or NaN is rejected. -/
theorem C104_ball_partial (c r : Num) (p q : ℚ) (sortQ : Bool) (hc : c.IsB64 p) (hr : r.IsB64 q) :
    (0 ≤ q → |p| + q ≤ maxFin → ∃ X a b, interval2F .nearest (.num c) (.num r) sortQ true = .ok (.iv X) ∧
      X.cls = .classical ∧ X.a.val = .fin a ∧ X.b.val = .fin b ∧
      (∀ t, |t - p| ≤ q → a - (2 ^ (-53 : ℤ) * |p - q| + 2 ^ (-1075 : ℤ)) ≤ t ∧
        t ≤ b + (2 ^ (-53 : ℤ) * |p + q| + 2 ^ (-1075 : ℤ))) ∧
      ((∃ z w, c = .int z ∧ r = .int w) ∨ (IsF (p - q) ∧ IsF (p + q)) → ∀ t, |t - p| ≤ q ↔ a ≤ t ∧ t ≤ b)) ∧
    (q < 0 → interval2F .nearest (.num c) (.num r) sortQ true = .error .assertionError) ∧
    interval2F .nearest (.num c) (.num (.dbl .nan)) sortQ true = .error .assertionError := by
  refine ⟨fun hq h => ?_, fun hq => ?_, rfl⟩
  · obtain ⟨X, a, b, h1, h2, _, h3, h4, h5⟩ := C104_ends c r p q sortQ hc hr hq h
    have w1 : (0 : ℚ) ≤ 2 ^ (-53 : ℤ) * |p - q| + 2 ^ (-1075 : ℤ) :=
      add_nonneg (mul_nonneg (zpow_pos (by norm_num) _).le (abs_nonneg _)) (zpow_pos (by norm_num) _).le
    have w2 : (0 : ℚ) ≤ 2 ^ (-53 : ℤ) * |p + q| + 2 ^ (-1075 : ℤ) :=
      add_nonneg (mul_nonneg (zpow_pos (by norm_num) _).le (abs_nonneg _)) (zpow_pos (by norm_num) _).le
    have n1 := abs_le.mp (nearTo_err (p - q))
    have n2 := abs_le.mp (nearTo_err (p + q))
    generalize 2 ^ (-53 : ℤ) * |p - q| + (2 : ℚ) ^ (-1075 : ℤ) = u at *
    generalize 2 ^ (-53 : ℤ) * |p + q| + (2 : ℚ) ^ (-1075 : ℤ) = v at *
    refine ⟨X, a, b, h1, h2, h3, h4, fun t ht => ?_, fun hex t => ?_⟩
    · rw [abs_le] at ht
      rcases h5 with ⟨_, rfl, rfl⟩ | ⟨rfl, rfl⟩
      · constructor <;> linarith
      · constructor <;> linarith
    · have e : a = p - q ∧ b = p + q := by
        rcases hex with hex | ⟨f1, f2⟩
        · obtain ⟨s', t', a', b', g1, g2, g3, g4, g5⟩ := num_addsub hc hr hq h
          obtain ⟨z, w, rfl, rfl⟩ := hex
          have e1 : (z : ℚ) = p := by simpa [Num.val] using hc.1
          have e2 : (w : ℚ) = q := by simpa [Num.val] using hr.1
          have hw : (0 : ℤ) ≤ w := by exact_mod_cast e2 ▸ hq
          have k1 : (Num.int 0).le (.int w) = true := le_zero_num hr hq
          have k2 : (Num.int (z + w)).lt (.int (z - w)) = false := by
            simp only [Num.lt, Num.val, Dbl.lt, decide_eq_false_iff_not, not_lt]
            exact_mod_cast (by omega : z - w ≤ z + w)
          have k3 : (Num.int (z - w)).le (.int (z + w)) = true := by
            simp only [Num.le, Num.val, Dbl.le, decide_eq_true_eq]
            exact_mod_cast (by omega : z - w ≤ z + w)
          have e3 : interval2F .nearest (.num (.int z)) (.num (.int w)) sortQ true =
              .ok (.iv ⟨.classical, .int (z - w), .int (z + w)⟩) := by
            simp only [interval2F, fSingle, if_true, k1, Num.sub, Num.add]
            cases sortQ <;> simp [k2, k3, Except.map]
          rw [e3] at h1
          cases h1
          simp only [Num.val, Dbl.fin.injEq] at h3 h4
          rw [← h3, ← h4, ← e1, ← e2]
          push_cast
          exact ⟨rfl, rfl⟩
        · rcases h5 with ⟨_, rfl, rfl⟩ | ⟨rfl, rfl⟩
          · exact ⟨rfl, rfl⟩
          · exact ⟨nearTo_of_isF f1, nearTo_of_isF f2⟩
      rw [e.1, e.2, abs_le]
      constructor
      · rintro ⟨g1, g2⟩; constructor <;> linarith
      · rintro ⟨g1, g2⟩; constructor <;> linarith
  · have : (Num.int 0).le r = false := by
      rw [Num.le, hr.1]
      simp only [Num.val, Dbl.le, Int.cast_zero, decide_eq_false_iff_not, not_le]
      exact hq
    simp [interval2F, fSingle, this, Except.map]

/-- The exact case: centre 3, radius 1/2. -/
example : interval2F .nearest (.num (.int 3)) (.num (.dbl (.fin (1 / 2)))) false true =
    .ok (.iv ⟨.classical, .dbl (.fin (5 / 2)), .dbl (.fin (7 / 2))⟩) := by decide +kernel

/-- C103: integers above the range of `int64` together with negative ones become floats although no float was
given: `Interval([-1, 2**63 + 1], [-1, 2**63 + 1])` loses the last digit of the second element. -/
theorem C103_unsigned_false : interval2F .nearest (.seq [.num (.int (-1)), .num (.int (2 ^ 63 + 1))])
      (.seq [.num (.int (-1)), .num (.int (2 ^ 63 + 1))]) true false =
    .ok (.arr [2] [⟨.classical, .dbl (.fin (-1)), .dbl (.fin (-1))⟩,
      ⟨.classical, .dbl (.fin (2 ^ 63)), .dbl (.fin (2 ^ 63))⟩]) := by decide +kernel

/-- C103: without negative integers they are kept. -/
theorem C103_unsigned (m : Mode) (z w : ℤ) (hz : 2 ^ 63 ≤ z ∧ z < 2 ^ 64) (hw : 2 ^ 63 ≤ w ∧ w < 2 ^ 64) :
    interval2F m (.seq [.num (.int z)]) (.seq [.num (.int w)]) false false =
      .ok (.arr [1] [⟨if z ≤ w then .classical else .kaucher, .int z, .int w⟩]) := by
  have d : ∀ z : ℤ, 2 ^ 63 ≤ z ∧ z < 2 ^ 64 → (Num.int z).dtype = .u64 := by
    intro z hz
    simp only [Num.dtype]
    rw [if_neg (by omega), if_pos hz]
  simp only [interval2F, npArrayNum, npAsarray, npAsarray.goList, dtypeOf, Cell.dtype, d z hz, d w hw, DType.promote,
    List.all_nil, List.foldl, List.map, Cell.castTo, Num.castTo, buildArr, List.zip_cons_cons, List.zip_nil_left,
    List.mapM_cons, List.mapM_nil, cellSingle, fSingle, List.length_nil, List.flatten_nil, List.append_nil, Num.le,
    Num.val, Dbl.le, if_true]
  by_cases h : z ≤ w
  · simp [h]
  · simp [h]

example : interval2F .nearest (.seq [.num (.int (2 ^ 63 + 1))]) (.seq [.num (.int (2 ^ 64 - 1))]) false false =
    .ok (.arr [1] [⟨.classical, .int (2 ^ 63 + 1), .int (2 ^ 64 - 1)⟩]) := by decide +kernel

/-- Without elements `np.vectorize` raises `ValueError`. -/
example : interval2F .nearest (.seq []) (.seq []) false false = .error .valueError := by decide +kernel

/-- C103: a number and something that is not a number is rejected by the assertion. -/
theorem C103_number_first (m : Mode) (l : Num) (y : Nest Num) (hy : ∀ c, y ≠ .num c) (sortQ q : Bool) :
    interval2F m (.num l) y sortQ q = .error .assertionError := by
  cases y with
  | num c => exact absurd rfl (hy c)
  | _ => rfl

/-- C105: an interval in a further position of a row makes numpy keep all entries as objects, so that the integers
at the first two positions are used unchanged; at one of these two positions it is rejected. -/
theorem C105_object_rows (m : Mode) (l r : ℤ) (X : Iv Num) (h : l ≤ r) :
    interval1F m [.seq [.num (.int l), .num (.int r), .iv X]] false false =
      .ok (.arr [1] [⟨.classical, .int l, .int r⟩]) ∧
    interval1F m [.seq [.iv X, .num (.int r), .num (.int l)]] false false = .error .assertionError ∧
    interval1F m [.seq [.num (.int l), .iv X, .num (.int r)]] false false = .error .assertionError := by
  have p : ∀ d : DType, d.promote .obj = .obj := by intro d; cases d <;> rfl
  have p' : ∀ d : DType, DType.obj.promote d = .obj := by intro d; cases d <;> rfl
  refine ⟨?_, ?_, ?_⟩ <;>
  simp [interval1F, npArrayNum, npAsarray, npAsarray.goList, dtypeOf, Cell.dtype, p, p', Cell.castTo, Num.castTo,
    buildArr, firstTwo, cellSingle, fSingle, Num.le, Num.val, Dbl.le, h, List.getLastD] <;> rfl

/-- `np.array([])` is a float array without elements. -/
example : npArrayNum (.seq []) = some ([0], .f64, []) := rfl

end IntvalPy
