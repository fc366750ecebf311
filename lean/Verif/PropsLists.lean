import Verif.PropsObjects

/-!
# Lists passed to `Interval`, with exact ends

C103 at the level of exact ends: what `Interval(list)` does with a flat list and with a list of rows
(/repo/intvalpy/kernel/real_intervals.py:459-471).  `PropsConstruct` treats lists of any depth of binary64 numbers and
integers; here the items may also be intervals and the ends are of any ordered field.
-/

set_option autoImplicit false
set_option linter.unusedSectionVars false

namespace IntvalPy

variable {K : Type*} [Field K] [LinearOrder K] [IsStrictOrderedRing K]

/-- The interval that the two numbers `l`, `r` denote: sorted, or in the order given. -/
def PairOf (sortQ : Bool) (l r : K) (X : Iv K) : Prop :=
  (sortQ = true → X = ⟨.classical, min l r, max l r⟩) ∧
  (sortQ = false → X.a = l ∧ X.b = r ∧ (X.cls = .classical ↔ l ≤ r))

theorem single_pair (R : Rnd K) (s : Bool) (l r : K) : ∃ X, singleInterval R l r s false = .ok X ∧ PairOf s l r X := by
  cases s
  · by_cases h : l ≤ r
    · exact ⟨⟨.classical, l, r⟩, by simp [singleInterval, h], by simp [PairOf, h]⟩
    · exact ⟨⟨.kaucher, l, r⟩, by simp [singleInterval, h], by simp [PairOf, h]⟩
  · by_cases h : r < l
    · exact ⟨⟨.classical, r, l⟩, by simp [singleInterval, h], by simp [PairOf, h.le]⟩
    · exact ⟨⟨.classical, l, r⟩, by simp [singleInterval, h], by simp [PairOf, not_lt.mp h]⟩

theorem pyFlat_nums : ∀ cs : List K, pyFlat (cs.map PyArg.num) = some (cs.map Sum.inl)
  | [] => rfl
  | c :: cs => by simp [pyFlat, pyFlat_nums cs]

theorem pyRows_nums : ∀ rows : List (List K),
    pyRows (rows.map fun r => PyArg.seq (r.map PyArg.num)) = some (rows.map fun r => r.map Sum.inl)
  | [] => rfl
  | r :: rows => by
    rw [List.map_cons, pyRows, pyFlat_nums, pyRows_nums rows]; rfl

/-- A list of rows reaches the branch for two axes. -/
theorem interval1_rows (R : Rnd K) (r : List K) (rows : List (List K)) (s m : Bool) :
    interval1 R (.seq ((r :: rows).map fun r => .seq (r.map .num))) s m =
      if ((r :: rows).map fun r => r.map (Sum.inl (β := Iv K))).all (fun q => q.length = r.length) then
        (((r :: rows).map fun r => r.map (Sum.inl (β := Iv K))).mapM (pyEnds R s m)).map .array
      else .error .valueError := by
  have h1 := pyRows_nums (r :: rows)
  have h2 : pyFlat ((r :: rows).map fun r => PyArg.seq (r.map (PyArg.num (K := K)))) = none := rfl
  generalize hL : ((r :: rows).map fun r => PyArg.seq (r.map (PyArg.num (K := K)))) = L at h1 h2
  have h3 : ∀ l u, L ≠ [.num l, .num u] := by
    rintro l u rfl
    simp at hL
  unfold interval1
  simp only [pyLen]
  split
  · rename_i h; cases h
  · rename_i h4 h5
    simp only [PyArg.seq.injEq] at h5
    exact absurd h5 (h3 _ _)
  · rename_i h; cases h
  · rename_i h
    simp only [PyArg.seq.injEq] at h
    subst h
    rw [h2, h1]
    simp
  · rename_i h
    exact absurd rfl (h _)

/-- A flat list that is not a pair of numbers reaches the branch for one axis. -/
theorem interval1_flat (R : Rnd K) (xs : List (PyArg K)) (els : List (K ⊕ Iv K)) (h : pyFlat xs = some els)
    (h2 : ∀ l r, xs ≠ [.num l, .num r]) (s m : Bool) :
    interval1 R (.seq xs) s m = (pyEnds R s m els).map .zeroDim := by
  unfold interval1
  simp only [pyLen]
  split
  · rename_i h; cases h
  · rename_i h4 h5
    simp only [PyArg.seq.injEq] at h5
    exact absurd h5 (h2 _ _)
  · rename_i h; cases h
  · rename_i h'
    simp only [PyArg.seq.injEq] at h'
    subst h'
    rw [h]
  · rename_i h
    exact absurd rfl (h _)

theorem mapM_ends (R : Rnd K) (s : Bool) : ∀ rows : List (List K), (∀ r ∈ rows, 2 ≤ r.length) →
    ∃ XS, (rows.map fun r => r.map (Sum.inl (β := Iv K))).mapM (pyEnds R s false) = .ok XS ∧
      List.Forall₂ (fun row X => ∃ l u rest, row = l :: u :: rest ∧ PairOf s l u X) rows XS
  | [], _ => ⟨[], rfl, .nil⟩
  | r :: rows, h => by
    obtain ⟨XS, h1, h2⟩ := mapM_ends R s rows fun q hq => h q (List.mem_cons_of_mem _ hq)
    match r, h r List.mem_cons_self with
    | l :: u :: rest, _ =>
      obtain ⟨X, h3, h4⟩ := single_pair R s l u
      refine ⟨X :: XS, ?_, .cons ⟨l, u, rest, rfl, h4⟩ h2⟩
      rw [List.map_cons, List.mapM_cons, h1]
      simp only [List.map_cons, pyEnds, h3]
      rfl

/-- C103, exact ends: a non-empty list of rows of numbers.  Rows of the same length, at least two, give one interval
per row, from the first two numbers of the row; rows shorter than that end in `IndexError`; rows of different length
in `ValueError`. -/
theorem C103_rows (R : Rnd K) (rows : List (List K)) (hne : rows ≠ []) (s : Bool) :
    (∀ k, 2 ≤ k → (∀ r ∈ rows, r.length = k) →
      ∃ XS, interval1 R (.seq (rows.map fun r => .seq (r.map .num))) s false = .ok (.array XS) ∧
        List.Forall₂ (fun row X => ∃ l u rest, row = l :: u :: rest ∧ PairOf s l u X) rows XS) ∧
    (∀ k, k < 2 → (∀ r ∈ rows, r.length = k) →
      interval1 R (.seq (rows.map fun r => .seq (r.map .num))) s false = .error .indexError) ∧
    ((∃ r ∈ rows, ∃ r' ∈ rows, r.length ≠ r'.length) →
      interval1 R (.seq (rows.map fun r => .seq (r.map .num))) s false = .error .valueError) := by
  obtain ⟨r, rows, rfl⟩ := List.exists_cons_of_ne_nil hne
  have hall : ∀ k, (∀ q ∈ r :: rows, q.length = k) →
      (((r :: rows).map fun r => r.map (Sum.inl (β := Iv K))).all (fun q => q.length = r.length)) = true := by
    intro k h
    rw [List.all_eq_true]
    intro q hq
    obtain ⟨q', hq', rfl⟩ := List.mem_map.mp hq
    simp [h q' hq', h r List.mem_cons_self]
  refine ⟨fun k hk h => ?_, fun k hk h => ?_, ?_⟩
  · obtain ⟨XS, h1, h2⟩ := mapM_ends R s (r :: rows) fun q hq => by rw [h q hq]; exact hk
    exact ⟨XS, by rw [interval1_rows, if_pos (hall k h), h1]; rfl, h2⟩
  · rw [interval1_rows, if_pos (hall k h), List.map_cons, List.mapM_cons]
    have hr := h r List.mem_cons_self
    match r, hr with
    | [], _ => rfl
    | [c], _ => rfl
    | _ :: _ :: _, hr => simp at hr; omega
  · rintro ⟨q, hq, q', hq', hd⟩
    rw [interval1_rows, if_neg]
    intro h
    rw [List.all_eq_true] at h
    have a := h _ (List.mem_map_of_mem hq)
    have b := h _ (List.mem_map_of_mem hq')
    simp only [List.length_map, decide_eq_true_eq] at a b
    exact hd (a.trans b.symm)

/-- C103, exact ends: a flat list.  Two numbers give the interval; three or more items whose first two are numbers give
an array without axes with that interval; fewer than two items end in `IndexError`; an interval among the first two
items ends in `AssertionError`. -/
theorem C103_flat (R : Rnd K) (s : Bool) :
    (∀ l u, ∃ X, interval1 R (.seq [.num l, .num u]) s false = .ok (.single X) ∧ PairOf s l u X) ∧
    (∀ l u c cs, ∃ X, interval1 R (.seq ((l :: u :: c :: cs).map .num)) s false = .ok (.zeroDim X) ∧ PairOf s l u X) ∧
    (∀ c, interval1 R (.seq [.num c]) s false = .error .indexError) ∧
    interval1 R (.seq []) s false = .error .indexError ∧
    (∀ X Y c, interval1 R (.seq [.iv X]) s false = .error .indexError ∧
      interval1 R (.seq [.iv X, .num c]) s false = .error .assertionError ∧
      interval1 R (.seq [.num c, .iv X]) s false = .error .assertionError ∧
      interval1 R (.seq [.iv X, .iv Y]) s false = .error .assertionError) ∧
    (∀ X l u, ∃ Z, interval1 R (.seq [.num l, .num u, .iv X]) s false = .ok (.zeroDim Z) ∧ PairOf s l u Z) := by
  refine ⟨fun l u => ?_, fun l u c cs => ?_, fun c => rfl, rfl, fun X Y c => ⟨rfl, rfl, rfl, rfl⟩, fun X l u => ?_⟩
  · obtain ⟨X, h1, h2⟩ := single_pair R s l u
    exact ⟨X, by rw [(C22_interval_partial R X [] l u s false).2.2, interval2, h1]; rfl, h2⟩
  · obtain ⟨X, h1, h2⟩ := single_pair R s l u
    refine ⟨X, ?_, h2⟩
    rw [interval1_flat R _ _ (pyFlat_nums _) (by simp)]
    simp only [List.map_cons, pyEnds, h1]; rfl
  · obtain ⟨Z, h1, h2⟩ := single_pair R s l u
    refine ⟨Z, ?_, h2⟩
    rw [interval1_flat R [.num l, .num u, .iv X] [.inl l, .inl u, .inr X] rfl (by simp)]
    simp only [pyEnds, h1]; rfl

example : interval1 Rnd.exact (.seq [.seq [.num (3 : ℚ), .num 1], .seq [.num 2, .num 5]]) true false =
      .ok (.array [⟨.classical, 1, 3⟩, ⟨.classical, 2, 5⟩]) ∧
    interval1 Rnd.exact (.seq [.seq [.num (3 : ℚ), .num 1], .seq [.num 2, .num 5]]) false false =
      .ok (.array [⟨.kaucher, 3, 1⟩, ⟨.classical, 2, 5⟩]) ∧
    interval1 Rnd.exact (.seq [.num (3 : ℚ), .num 1, .num 7]) true false = .ok (.zeroDim ⟨.classical, 1, 3⟩) := by
  refine ⟨?_, ?_, ?_⟩ <;> rfl

end IntvalPy
