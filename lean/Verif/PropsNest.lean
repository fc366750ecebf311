import Verif.ModelUtils
import Verif.SpecKernel
import Mathlib.Algebra.BigOperators.Group.List.Basic
import Mathlib.Analysis.Convex.Combination
import Mathlib.Analysis.Convex.Hull

/-!
# C98–C100: `get_shape`, `asinterval` of nested lists, `IPlot.scatter`
-/

set_option autoImplicit false
set_option linter.unusedSectionVars false

namespace IntvalPy
open Spec

variable {K : Type*}

/-! ## C98: get_shape -/

/-- The shape of a nested list in the sense of numpy: all items of a list have the same shape. -/
inductive HasShape : Nest K → List ℕ → Prop
  | num (c : K) : HasShape (.num c) []
  | iv (x : Iv K) : HasShape (.iv x) []
  | arr (sh : List ℕ) (d : List (Iv K)) : HasShape (.arr sh d) sh
  | nd (sh : List ℕ) (d : List K) : HasShape (.nd sh d) sh
  | nil : HasShape (.seq []) [0]
  | seq (x : Nest K) (xs : List (Nest K)) (t : List ℕ) : (∀ y ∈ x :: xs, HasShape y t) →
      HasShape (.seq (x :: xs)) ((xs.length + 1) :: t)

/-- Nested lists of numbers without empty lists. -/
inductive Numeric : Nest K → Prop
  | num (c : K) : Numeric (.num c)
  | seq (x : Nest K) (xs : List (Nest K)) : (∀ y ∈ x :: xs, Numeric y) → Numeric (.seq (x :: xs))

/-- The lengths met on the way down through the first items. -/
inductive FirstPath : Nest K → List ℕ → Prop
  | num (c : K) : FirstPath (.num c) []
  | seq (x : Nest K) (xs : List (Nest K)) (t : List ℕ) : FirstPath x t →
      FirstPath (.seq (x :: xs)) ((xs.length + 1) :: t)

/-- C98 (full statement, false of the code): `get_shape` returns the shape of a nested list and raises when the list
has no shape. -/
def C98_statement (K : Type*) [Field K] [LinearOrder K] : Prop :=
  (∀ (x : Nest K) (s : List ℕ), HasShape x s → getShape x [] = .ok s) ∧
  (∀ x : Nest K, (∀ s, ¬ HasShape x s) → ∃ e, getShape x [] = .error e)

theorem HasShape.unique_num {x : Nest K} {s t : List ℕ} (hx : Numeric x) (h : HasShape x s) (h' : HasShape x t) :
    s = t := by
  induction hx generalizing s t with
  | num c => cases h; cases h'; rfl
  | seq x xs _ ih =>
    cases h with
    | seq _ _ u hu =>
      cases h' with
      | seq _ _ v hv => rw [ih x (by simp) (hu x (by simp)) (hv x (by simp))]

theorem HasShape.length_eq {l : List (Nest K)} {n : ℕ} {t : List ℕ} (h : HasShape (.seq l) (n :: t)) :
    l.length = n := by
  generalize hs : n :: t = s at h
  cases h with
  | nil => simp only [List.cons.injEq] at hs; simp [hs.1]
  | seq x xs u _ => simp only [List.cons.injEq] at hs; simp [hs.1]

theorem allLen_true {l : ℕ} : ∀ {xs : List (Nest K)}, (∀ y ∈ xs, y.len = .ok l) → allLen l xs = .ok true
  | [], _ => rfl
  | x :: xs, h => by
    simp only [allLen, h x (by simp), if_true]
    exact allLen_true fun y hy => h y (by simp [hy])

/-- C98, partial (correct shapes): a nested list of numbers, without empty lists, that has a shape gets it. -/
theorem C98_shape_partial (x : Nest K) (hx : Numeric x) (s : List ℕ) (h : HasShape x s) (p : List ℕ) :
    getShape x p = .ok (p ++ s) := by
  induction hx generalizing s p with
  | num c => cases h; simp [getShape]
  | seq x xs hn ih =>
    cases h with
    | seq _ _ t ht =>
      have rest := ih x (by simp) t (ht x (by simp)) (p ++ [xs.length + 1])
      rw [getShape, rest]
      have hp : p ++ [xs.length + 1] ++ t = p ++ (xs.length + 1) :: t := by simp
      cases hq : x.isSequence with
      | false => simp [hp]
      | true =>
        have hx' := hn x (by simp)
        have hx'' := ht x (by simp)
        cases hx' with
        | num c => cases hq
        | seq z zs _ =>
          cases hx'' with
          | seq _ _ u _ =>
            have : allLen (zs.length + 1) (Nest.seq (z :: zs) :: xs) = .ok true := by
              refine allLen_true fun y hy => ?_
              have h1 := hn y hy
              have h2 := ht y hy
              cases h1 with
              | num c => cases h2
              | seq w ws _ => simp only [Nest.len, h2.length_eq]
            simp [Nest.len, this, hp]

/-- What `get_shape` returns for nested lists of numbers: the lengths along the first items, whatever the others
are. -/
theorem C98_first_path (x : Nest K) (hx : Numeric x) (p s : List ℕ) (h : getShape x p = .ok s) :
    ∃ t, FirstPath x t ∧ s = p ++ t := by
  induction hx generalizing s p with
  | num c => cases h; exact ⟨[], .num c, by simp⟩
  | seq x xs hn ih =>
    have key : getShape x (p ++ [xs.length + 1]) = .ok s := by
      rw [getShape] at h
      cases hq : x.isSequence with
      | false => simpa [hq] using h
      | true =>
        simp only [hq, if_true] at h
        cases h1 : x.len with
        | error e => rw [h1] at h; cases h
        | ok l =>
          rw [h1] at h
          dsimp only at h
          cases h2 : allLen l (x :: xs) with
          | error e => rw [h2] at h; cases h
          | ok b =>
            rw [h2] at h
            cases b
            · cases h
            · exact h
    obtain ⟨t, h1, h2⟩ := ih x (by simp) _ _ key
    exact ⟨_, .seq x xs t h1, by simp [h2]⟩

/-- The nested list of a list of rows of numbers. -/
def Nest.rows (rs : List (List K)) : Nest K := .seq (rs.map fun r => .seq (r.map .num))

/-- C98 (lists of rows of numbers): rectangular nonempty lists get their shape, ragged ones raise `ValueError`, and an
empty list or an empty first row (with rows of equal length) raises `IndexError`. -/
theorem C98_rows (r : List K) (rs : List (List K)) :
    ((∀ r' ∈ rs, r'.length = r.length) → r ≠ [] → getShape (Nest.rows (r :: rs)) [] = .ok [rs.length + 1, r.length]) ∧
    ((∀ r' ∈ rs, r'.length = r.length) → r = [] → getShape (Nest.rows (r :: rs)) [] = .error .indexError) ∧
    ((∃ r' ∈ rs, r'.length ≠ r.length) → getShape (Nest.rows (r :: rs)) [] = .error .valueError) ∧
    getShape (Nest.rows ([] : List (List K))) [] = .error .indexError := by
  have hall : ∀ (l : ℕ) (qs : List (List K)), allLen l (qs.map fun r => (Nest.seq (r.map Nest.num) : Nest K)) =
      .ok (decide (∀ r' ∈ qs, r'.length = l)) := by
    intro l qs
    induction qs with
    | nil => simp [allLen]
    | cons q qs ih =>
      simp only [List.map_cons, allLen, Nest.len, List.length_map]
      by_cases hq : q.length = l
      · rw [if_pos hq, ih]; simp [hq]
      · rw [if_neg hq]; simp [hq]
  have e : getShape (Nest.rows (r :: rs)) [] = (match allLen r.length ((r :: rs).map fun r => (Nest.seq (r.map Nest.num) : Nest K)) with
      | .error e => .error e
      | .ok false => .error .valueError
      | .ok true => getShape (Nest.seq (r.map Nest.num) : Nest K) [rs.length + 1]) := by
    simp only [Nest.rows, List.map_cons, getShape, Nest.isSequence, Nest.len, List.length_map, if_true, List.nil_append]
    rcases allLen r.length (Nest.seq (List.map Nest.num r) :: List.map (fun r => (Nest.seq (List.map Nest.num r) : Nest K)) rs)
      with e | (_ | _) <;> rfl
  have hrow : ∀ k, r ≠ [] → getShape (Nest.seq (r.map Nest.num) : Nest K) [k] = .ok [k, r.length] := by
    intro k hr
    cases r with
    | nil => exact absurd rfl hr
    | cons c cs => simp [getShape, Nest.isSequence]
  rw [e, hall]
  refine ⟨fun h hr => ?_, fun h hr => ?_, fun h => ?_, rfl⟩
  · rw [decide_eq_true (by simpa using h)]
    exact hrow _ hr
  · rw [decide_eq_true (by simpa using h)]
    subst hr
    rfl
  · rw [decide_eq_false (by
      obtain ⟨r', h1, h2⟩ := h
      intro h'
      exact h2 (h' r' (by simp [h1])))]

example : getShape (Nest.rows [[1, 2, 3], [4, 5, 6]] : Nest ℚ) [] = .ok [2, 3] ∧
    getShape (Nest.rows [[1, 2, 3], [4, 5]] : Nest ℚ) [] = .error .valueError :=
  ⟨(C98_rows [1, 2, 3] [[4, 5, 6]]).1 (by simp) (by simp), (C98_rows [1, 2, 3] [[4, 5]]).2.2.1 (by simp)⟩

/-- C98 (interval arrays): the shape is cut at the first axis of length one; without such an axis the recursion meets an
empty axis (`IndexError`) or a single interval (`TypeError`). -/
theorem C98_interval_array (sh acc : List ℕ) (el : List (Iv K)) :
    (∀ pre post, sh = pre ++ 1 :: post → (∀ k ∈ pre, 2 ≤ k) → getShape (.arr sh el : Nest K) acc = .ok (acc ++ pre)) ∧
    (∀ pre post, sh = pre ++ 0 :: post → (∀ k ∈ pre, 2 ≤ k) → getShape (.arr sh el : Nest K) acc = .error .indexError) ∧
    ((∀ k ∈ sh, 2 ≤ k) → getShape (.arr sh el : Nest K) acc = .error .typeError) := by
  have step : ∀ k (t a : List ℕ), 2 ≤ k → getShapeArr (k :: t) a = getShapeArr t (a ++ [k]) := by
    intro k t a hk
    rw [getShapeArr, if_neg (by omega), if_neg (by omega)]
  have key : ∀ (pre t a : List ℕ), (∀ k ∈ pre, 2 ≤ k) → getShapeArr (pre ++ t) a = getShapeArr t (a ++ pre) := by
    intro pre
    induction pre with
    | nil => intro t a _; simp
    | cons k pre ih =>
      intro t a h
      rw [List.cons_append, step k _ _ (h k (by simp)), ih _ _ fun j hj => h j (by simp [hj]), List.append_assoc]
      rfl
  simp only [getShape]
  refine ⟨?_, ?_, fun h => ?_⟩
  · rintro pre post rfl h
    rw [key _ _ _ h, getShapeArr, if_pos rfl]
  · rintro pre post rfl h
    rw [key _ _ _ h, getShapeArr, if_neg (by omega), if_pos rfl]
  · have := key sh [] acc h
    rw [List.append_nil] at this
    rw [this]
    rfl

example (el : List (Iv ℚ)) : getShape (.arr [3, 2, 1, 4] el : Nest ℚ) [] = .ok [3, 2] ∧
    getShape (.arr [3, 2] el : Nest ℚ) [] = .error .typeError :=
  ⟨(C98_interval_array [3, 2, 1, 4] [] el).1 [3, 2] [4] rfl (by simp), (C98_interval_array [3, 2] [] el).2.2 (by simp)⟩

/-- The ragged list `[[[1], [2]], [[1, 2], [3, 4]]]`. -/
def ragged3 : Nest ℚ := .seq [.seq [.seq [.num 1], .seq [.num 2]], .seq [.seq [.num 1, .num 2], .seq [.num 3, .num 4]]]

/-- C98 is false: a list ragged at the third level is given the shape `(2, 2, 1)`, a list of two vectors of length two
the shape `(2,)`, lists of intervals raise `TypeError`, and an interval array with one row has the shape `()`. -/
theorem C98_shape_false : ¬ C98_statement ℚ ∧
    ((∀ s, ¬ HasShape ragged3 s) ∧ getShape ragged3 [] = .ok [2, 2, 1]) ∧
    (HasShape (.seq [.nd [2] [1, 2], .nd [2] [3, 4]] : Nest ℚ) [2, 2] ∧
      getShape (.seq [.nd [2] [1, 2], .nd [2] [3, 4]] : Nest ℚ) [] = .ok [2]) ∧
    (HasShape (.seq [.iv ⟨.classical, 1, 2⟩] : Nest ℚ) [1] ∧
      getShape (.seq [.iv ⟨.classical, 1, 2⟩] : Nest ℚ) [] = .error .typeError) ∧
    (HasShape (.arr [1, 2] [⟨.classical, 1, 2⟩, ⟨.classical, 3, 4⟩] : Nest ℚ) [1, 2] ∧
      getShape (.arr [1, 2] [⟨.classical, 1, 2⟩, ⟨.classical, 3, 4⟩] : Nest ℚ) [] = .ok []) := by
  have h1 : ∀ s, ¬ HasShape ragged3 s := by
    intro s h
    cases h with
    | seq _ _ t h =>
      have a := h (.seq [.seq [.num 1], .seq [.num 2]]) (by simp)
      have b := h (.seq [.seq [.num 1, .num 2], .seq [.num 3, .num 4]]) (by simp)
      cases a with
      | seq _ _ u a =>
        cases b with
        | seq _ _ _ b =>
          have a' := a (.seq [.num 1]) (by simp)
          have b' := b (.seq [.num 1, .num 2]) (by simp)
          cases a'
          cases b'
  have h2 : getShape ragged3 [] = .ok [2, 2, 1] := rfl
  refine ⟨fun h => ?_, ⟨h1, h2⟩, ⟨.seq _ _ _ ?_, rfl⟩, ⟨.seq _ _ _ ?_, rfl⟩, .arr _ _, rfl⟩
  · obtain ⟨e, he⟩ := h.2 ragged3 h1
    rw [h2] at he
    cases he
  · intro y hy
    simp only [List.mem_cons, List.not_mem_nil, or_false] at hy
    rcases hy with rfl | rfl
    · exact .nd _ _
    · exact .nd _ _
  · intro y hy
    simp only [List.mem_cons, List.not_mem_nil, or_false] at hy
    subst hy
    exact .iv _

/-! ## C99: asinterval of nested lists -/

/-- Number of elements of an array of the given shape. -/
def cells : List ℕ → ℕ
  | [] => 1
  | n :: sh => n * cells sh

/-- Position of a multi-index in row-major order. -/
def rowMajorIdx : List ℕ → List ℕ → Option ℕ
  | [], [] => some 0
  | n :: sh, i :: is => if i < n then (rowMajorIdx sh is).map (i * cells sh + ·) else none
  | _, _ => none

/-- The arrays inside the list have as many elements as their shape says. -/
inductive WellFormed : Nest K → Prop
  | num (c : K) : WellFormed (.num c)
  | iv (x : Iv K) : WellFormed (.iv x)
  | arr (sh : List ℕ) (d : List (Iv K)) : d.length = cells sh → WellFormed (.arr sh d)
  | nd (sh : List ℕ) (d : List K) : d.length = cells sh → WellFormed (.nd sh d)
  | seq (xs : List (Nest K)) : (∀ y ∈ xs, WellFormed y) → WellFormed (.seq xs)

/-- `Item x idx e`: the element of the nested list at the multi-index is `e`. -/
inductive Item : Nest K → List ℕ → K ⊕ Iv K → Prop
  | num (c : K) : Item (.num c) [] (.inl c)
  | iv (x : Iv K) : Item (.iv x) [] (.inr x)
  | arr (sh : List ℕ) (d : List (Iv K)) (idx : List ℕ) (k : ℕ) (x : Iv K) : rowMajorIdx sh idx = some k → d[k]? = some x →
      Item (.arr sh d) idx (.inr x)
  | nd (sh : List ℕ) (d : List K) (idx : List ℕ) (k : ℕ) (c : K) : rowMajorIdx sh idx = some k → d[k]? = some c →
      Item (.nd sh d) idx (.inl c)
  | seq (xs : List (Nest K)) (i : ℕ) (is : List ℕ) (x : Nest K) (e : K ⊕ Iv K) : xs[i]? = some x → Item x is e →
      Item (.seq xs) (i :: is) e

/-- The interval that represents an element: itself, or the degenerate interval of a number. -/
def Repr : K ⊕ Iv K → Iv K → Prop
  | .inl c, X => X = ⟨.classical, c, c⟩
  | .inr Y, X => X = Y

theorem rowMajorIdx_lt : ∀ {sh idx : List ℕ} {k : ℕ}, rowMajorIdx sh idx = some k → k < cells sh
  | [], [], k, h => by cases h; simp [cells]
  | [], _ :: _, k, h => by cases h
  | _ :: _, [], k, h => by cases h
  | n :: sh, i :: is, k, h => by
    simp only [rowMajorIdx] at h
    split_ifs at h with hi
    cases hr : rowMajorIdx sh is with
    | none => rw [hr] at h; cases h
    | some j =>
      rw [hr] at h
      cases h
      have := rowMajorIdx_lt hr
      have h2 : (i + 1) * cells sh ≤ n * cells sh := Nat.mul_le_mul_right _ hi
      simp only [cells]
      nlinarith

theorem flatten_get {α : Type*} (L : ℕ) : ∀ (ls : List (List α)), (∀ l ∈ ls, l.length = L) →
    ls.flatten.length = ls.length * L ∧ ∀ (i : ℕ) (l : List α) (k : ℕ), ls[i]? = some l → k < L →
      ls.flatten[i * L + k]? = l[k]?
  | [], _ => by simp
  | l :: ls, h => by
    obtain ⟨h1, h2⟩ := flatten_get L ls fun l' hl' => h l' (by simp [hl'])
    have hl := h l (by simp)
    refine ⟨by simp only [List.flatten_cons, List.length_append, h1, hl, List.length_cons]; ring, ?_⟩
    rintro (_ | i) l' k hi hk
    · simp only [List.getElem?_cons_zero, Option.some.injEq] at hi
      subst hi
      rw [List.flatten_cons, zero_mul, zero_add, List.getElem?_append_left (by rw [hl]; exact hk)]
    · simp only [List.getElem?_cons_succ] at hi
      rw [List.flatten_cons, List.getElem?_append_right (by rw [hl]; nlinarith), hl,
        show (i + 1) * L + k - L = i * L + k by rw [add_mul, one_mul]; omega]
      exact h2 i l' k hi hk

/-- The conversion of a nested list to an array puts every element at its place. -/
def Places (x : Nest K) (s : List ℕ) (els : List (K ⊕ Iv K)) : Prop :=
  els.length = cells s ∧ ∀ idx k, rowMajorIdx s idx = some k → ∃ e, els[k]? = some e ∧ Item x idx e

theorem goList_ok {t : List ℕ} : ∀ {xs : List (Nest K)},
    (∀ y ∈ xs, ∃ els, npAsarray y = some (t, els) ∧ Places y t els) →
    ∃ ls : List (List (K ⊕ Iv K)), npAsarray.goList xs = some (ls.map fun l => (t, l)) ∧ ls.length = xs.length ∧
      (∀ l ∈ ls, l.length = cells t) ∧ ∀ (i : ℕ) (y : Nest K), xs[i]? = some y → ∃ l, ls[i]? = some l ∧ Places y t l
  | [], _ => ⟨[], rfl, rfl, by simp, by simp⟩
  | x :: xs, h => by
    obtain ⟨els, h1, h2⟩ := h x (by simp)
    obtain ⟨ls, h3, h4, h5, h6⟩ := goList_ok (xs := xs) fun y hy => h y (by simp [hy])
    refine ⟨els :: ls, ?_, by simp [h4], ?_, ?_⟩
    · rw [npAsarray.goList, h1, h3]; rfl
    · intro l hl
      rcases List.mem_cons.mp hl with rfl | hl
      · exact h2.1
      · exact h5 l hl
    · rintro (_ | i) y hy
      · simp only [List.getElem?_cons_zero, Option.some.injEq] at hy
        subst hy
        exact ⟨els, rfl, h2⟩
      · simp only [List.getElem?_cons_succ] at hy
        simpa using h6 i y hy

theorem npAsarray_ok {x : Nest K} {s : List ℕ} (h : HasShape x s) (hw : WellFormed x) :
    ∃ els, npAsarray x = some (s, els) ∧ Places x s els := by
  induction h with
  | num c => exact ⟨_, rfl, rfl, fun idx k hk => by
      cases idx with
      | nil => cases hk; exact ⟨_, rfl, .num c⟩
      | cons i is => cases hk⟩
  | iv x => exact ⟨_, rfl, rfl, fun idx k hk => by
      cases idx with
      | nil => cases hk; exact ⟨_, rfl, .iv x⟩
      | cons i is => cases hk⟩
  | arr sh d =>
    cases hw with
    | arr _ _ hl =>
      refine ⟨_, rfl, by simp [hl], fun idx k hk => ?_⟩
      have hlt : k < d.length := by rw [hl]; exact rowMajorIdx_lt hk
      exact ⟨.inr d[k], by simp [hlt], .arr _ _ _ k _ hk (List.getElem?_eq_getElem hlt)⟩
  | nd sh d =>
    cases hw with
    | nd _ _ hl =>
      refine ⟨_, rfl, by simp [hl], fun idx k hk => ?_⟩
      have hlt : k < d.length := by rw [hl]; exact rowMajorIdx_lt hk
      exact ⟨.inl d[k], by simp [hlt], .nd _ _ _ k _ hk (List.getElem?_eq_getElem hlt)⟩
  | nil => exact ⟨[], rfl, rfl, fun idx k hk => absurd (rowMajorIdx_lt hk) (by simp [cells])⟩
  | seq x xs t _ ih =>
    cases hw with
    | seq _ hw =>
      obtain ⟨ls, h1, h2, h3, h4⟩ := goList_ok (t := t) (xs := x :: xs) fun y hy => ih y hy (hw y hy)
      cases ls with
      | nil => simp at h2
      | cons l ls =>
        have h2' : ls.length = xs.length := by simpa using h2
        obtain ⟨f1, f2⟩ := flatten_get (cells t) (l :: ls) h3
        have hall : (ls.map fun l => (t, l)).all (fun p => p.1 = t) = true := by simp
        refine ⟨(l :: ls).flatten, ?_, ?_, ?_⟩
        · rw [npAsarray, h1]
          simp only [List.map_cons, hall, if_true, List.length_map, h2', List.map_map, List.flatten_cons]
          congr 4
          simp [Function.comp_def]
        · rw [f1]; simp [cells, h2']
        · intro idx k hk
          cases idx with
          | nil => cases hk
          | cons i is =>
            simp only [rowMajorIdx] at hk
            split_ifs at hk with hi
            cases hr : rowMajorIdx t is with
            | none => rw [hr] at hk; cases hk
            | some j =>
              rw [hr] at hk
              cases hk
              have hi' : i < (x :: xs).length := by simpa using hi
              obtain ⟨l', g1, g2, g3⟩ := h4 i (x :: xs)[i] (List.getElem?_eq_getElem hi')
              obtain ⟨e, g4, g5⟩ := g3 is j hr
              refine ⟨e, ?_, .seq _ i is _ e (List.getElem?_eq_getElem hi') g5⟩
              rw [f2 i l' j g1 (rowMajorIdx_lt hr), g4]

mutual
theorem npAsarray_shape : ∀ (x : Nest K) (s : List ℕ) (els : List (K ⊕ Iv K)), npAsarray x = some (s, els) → HasShape x s
  | .num c, s, els, h => by rw [npAsarray] at h; cases h; exact .num c
  | .iv x, s, els, h => by rw [npAsarray] at h; cases h; exact .iv x
  | .arr sh d, s, els, h => by rw [npAsarray] at h; cases h; exact .arr sh d
  | .nd sh d, s, els, h => by rw [npAsarray] at h; cases h; exact .nd sh d
  | .seq xs, s, els, h => by
    rw [npAsarray] at h
    cases hg : npAsarray.goList xs with
    | none => rw [hg] at h; cases h
    | some ps =>
      have hs := goList_shape xs ps hg
      rw [hg] at h
      cases ps with
      | nil =>
        cases hs
        cases h
        exact .nil
      | cons p ps =>
        obtain ⟨sh, d⟩ := p
        dsimp only at h
        split_ifs at h with hall
        cases h
        cases hs with
        | cons h1 h2 =>
          rename_i x xs'
          rw [← h2.length_eq]
          refine .seq x xs' sh ?_
          intro y hy
          rcases List.mem_cons.mp hy with rfl | hy
          · exact h1
          · obtain ⟨i, hi, rfl⟩ := List.getElem_of_mem hy
            have hi' : i < ps.length := by rw [← h2.length_eq]; exact hi
            have := List.Forall₂.get h2 hi hi'
            simp only [List.get_eq_getElem] at this
            have he := (List.all_eq_true.mp hall) ps[i] (List.getElem_mem hi')
            simp only [decide_eq_true_eq] at he
            rw [he] at this
            exact this
theorem goList_shape : ∀ (xs : List (Nest K)) (ps : List (List ℕ × List (K ⊕ Iv K))), npAsarray.goList xs = some ps →
    List.Forall₂ (fun x p => HasShape x p.1) xs ps
  | [], ps, h => by rw [npAsarray.goList] at h; cases h; exact .nil
  | x :: xs, ps, h => by
    rw [npAsarray.goList] at h
    cases h1 : npAsarray x with
    | none => rw [h1] at h; cases h
    | some p =>
      cases h2 : npAsarray.goList xs with
      | none => rw [h1, h2] at h; cases h
      | some qs =>
        rw [h1, h2] at h
        cases h
        obtain ⟨s, els⟩ := p
        exact .cons (npAsarray_shape x s els h1) (goList_shape xs qs h2)
end

variable [Field K] [LinearOrder K]

theorem asIv_ok (R : Rnd K) (e : K ⊕ Iv K) : ∃ X, asIv R e = .ok X ∧ Repr e X := by
  cases e with
  | inl c => exact ⟨⟨.classical, c, c⟩, by simp [asIv, interval2, singleInterval], rfl⟩
  | inr X => exact ⟨X, rfl, rfl⟩

theorem mapM_asIv (R : Rnd K) : ∀ els : List (K ⊕ Iv K), ∃ data, els.mapM (asIv R) = .ok data ∧
    data.length = els.length ∧ ∀ (k : ℕ) (e : K ⊕ Iv K), els[k]? = some e → ∃ X, data[k]? = some X ∧ Repr e X
  | [] => ⟨[], rfl, rfl, by simp⟩
  | e :: els => by
    obtain ⟨X, h1, h2⟩ := asIv_ok R e
    obtain ⟨data, h3, h4, h5⟩ := mapM_asIv R els
    refine ⟨X :: data, ?_, by simp [h4], ?_⟩
    · rw [List.mapM_cons, h1, h3]; rfl
    · rintro (_ | k) e' he
      · simp only [List.getElem?_cons_zero, Option.some.injEq] at he
        subst he
        exact ⟨X, rfl, h2⟩
      · simp only [List.getElem?_cons_succ] at he
        simpa using h5 k e' he

/-- C99: `asinterval` of a list (or `ndarray`) with a shape is an interval array of that shape that holds at every
multi-index the interval given there, or the degenerate interval of the number given there; a list without a shape is
rejected with `TypeError`; numbers become degenerate intervals, and intervals and interval arrays are returned as they
are. -/
theorem C99_asinterval (R : Rnd K) (x : Nest K) (hw : WellFormed x) :
    (∀ s, HasShape x s → (∃ xs, x = .seq xs) ∨ (∃ sh d, x = .nd sh d) →
      ∃ data, asintervalNest R x = .ok (.arr s data) ∧ data.length = cells s ∧
        ∀ idx k, rowMajorIdx s idx = some k → ∃ e X, Item x idx e ∧ data[k]? = some X ∧ Repr e X) ∧
    ((∀ s, ¬ HasShape x s) → asintervalNest R x = .error .typeError) ∧
    (∀ c, x = .num c → asintervalNest R x = .ok (.iv ⟨.classical, c, c⟩)) ∧
    (∀ X, x = .iv X → asintervalNest R x = .ok (.iv X)) ∧
    (∀ sh d, x = .arr sh d → asintervalNest R x = .ok (.arr sh d)) := by
  refine ⟨fun s hs hx => ?_, fun hn => ?_, ?_, ?_, ?_⟩
  · obtain ⟨els, h1, h2, h3⟩ := npAsarray_ok hs hw
    obtain ⟨data, h4, h5, h6⟩ := mapM_asIv R els
    refine ⟨data, ?_, h5.trans h2, fun idx k hk => ?_⟩
    · rcases hx with ⟨xs, rfl⟩ | ⟨sh, d, rfl⟩
      · simp only [asintervalNest, h1, h4]
      · simp only [asintervalNest, h1, h4]
    · obtain ⟨e, h7, h8⟩ := h3 idx k hk
      obtain ⟨X, h9, h10⟩ := h6 k e h7
      exact ⟨e, X, h8, h9, h10⟩
  · cases x with
    | num c => exact absurd (.num c) (hn [])
    | iv X => exact absurd (.iv X) (hn [])
    | arr sh d => exact absurd (.arr sh d) (hn sh)
    | nd sh d => exact absurd (.nd sh d) (hn sh)
    | seq xs =>
      cases hp : npAsarray (.seq xs) with
      | none => simp only [asintervalNest, hp]
      | some p => exact absurd (npAsarray_shape _ p.1 p.2 hp) (hn p.1)
  · rintro c rfl
    simp [asintervalNest, interval2, singleInterval]
  · rintro X rfl; rfl
  · rintro sh d rfl; rfl

/-- `asinterval([[1, Interval(2, 3)], [4, 5]])`. -/
example : ∃ data, asintervalNest Rnd.exact (.seq [.seq [.num 1, .iv ⟨.classical, 2, 3⟩], .seq [.num 4, .num 5]] : Nest ℚ) =
    .ok (.arr [2, 2] data) ∧ data[1]? = some ⟨.classical, 2, 3⟩ ∧ data[2]? = some ⟨.classical, 4, 4⟩ :=
  ⟨[⟨.classical, 1, 1⟩, ⟨.classical, 2, 3⟩, ⟨.classical, 4, 4⟩, ⟨.classical, 5, 5⟩], by decide +kernel, rfl, rfl⟩

/-! ## C100: IPlot.scatter -/

/-- How a box is to be drawn: a point as a marker, a segment as an outline, a box with an interior as a filled
polygon. -/
def Draws (m : Mark K) (x y : Iv K) : Prop :=
  match m with
  | .dot p => (∀ s t, s ∈ x ∧ t ∈ y ↔ (s, t) = p)
  | .outline ps => ps = corners x y ∧ ((x.a = x.b ∧ y.a ≠ y.b) ∨ (x.a ≠ x.b ∧ y.a = y.b))
  | .filled ps => ps = corners x y ∧ x.a ≠ x.b ∧ y.a ≠ y.b

/-- The marks are obtained from a rearrangement of the pairs, one mark for each pair. -/
def DrawsAll (ms : List (Mark K)) (ps : List (Iv K × Iv K)) : Prop :=
  ∃ qs, qs.Perm ps ∧ List.Forall₂ (fun m (p : Iv K × Iv K) => Draws m p.1 p.2) ms qs

theorem masks_cases (x y : Iv K) :
    (scatterMasks x y = (true, false, false) ∧ x.a = x.b ∧ y.a = y.b) ∨
    (scatterMasks x y = (false, true, false) ∧ ((x.a = x.b ∧ y.a ≠ y.b) ∨ (x.a ≠ x.b ∧ y.a = y.b))) ∨
    (scatterMasks x y = (false, false, true) ∧ x.a ≠ x.b ∧ y.a ≠ y.b) := by
  by_cases h1 : x.a = x.b <;> by_cases h2 : y.a = y.b <;> simp [scatterMasks, h1, h2]

/-- C100: `scatter` draws every pair of intervals exactly once: as a marker when both are degenerate, as the outline of
the segment when exactly one is, as a filled box otherwise; arrays of different length and empty ones raise
`ValueError`. -/
theorem C100_scatter (xs ys : List (Iv K)) (hx : ∀ x ∈ xs, Ordinary x) (hy : ∀ y ∈ ys, Ordinary y) :
    (xs ≠ [] → xs.length = ys.length → ∃ ms, scatter xs ys = .ok ms ∧ DrawsAll ms (xs.zip ys)) ∧
    (xs = [] ∨ ys = [] ∨ xs.length ≠ ys.length → scatter xs ys = .error .valueError) := by
  refine ⟨fun hne hl => ?_, fun h => by rw [scatter, if_pos h]⟩
  have hys : ys ≠ [] := by
    rintro rfl
    exact hne (List.eq_nil_of_length_eq_zero hl)
  refine ⟨_, by rw [scatter, if_neg (by simp [hne, hys, hl])], ?_⟩
  have hxy : ∀ p ∈ xs.zip ys, Ordinary p.1 ∧ Ordinary p.2 := by
    intro p hp
    exact ⟨hx _ (List.of_mem_zip hp).1, hy _ (List.of_mem_zip hp).2⟩
  clear hne hl hys
  generalize xs.zip ys = ps at hxy
  refine ⟨ps.filter (fun p => (scatterMasks p.1 p.2).1) ++ ps.filter (fun p => (scatterMasks p.1 p.2).2.1) ++
    ps.filter (fun p => (scatterMasks p.1 p.2).2.2), ?_, ?_⟩
  · clear hxy
    induction ps with
    | nil => exact List.Perm.refl _
    | cons p ps ih =>
      rcases masks_cases p.1 p.2 with ⟨h, _⟩ | ⟨h, _⟩ | ⟨h, _⟩
      · simp only [List.filter_cons, h]
        exact List.Perm.cons p ih
      · simp only [List.filter_cons, h]
        refine List.Perm.trans ?_ (List.Perm.cons p ih)
        simp only [if_true, Bool.false_eq_true, if_false]
        exact (List.perm_middle).append_right _
      · simp only [List.filter_cons, h]
        refine List.Perm.trans ?_ (List.Perm.cons p ih)
        simp only [if_true, Bool.false_eq_true, if_false]
        exact List.perm_middle
  · refine List.rel_append (List.rel_append ?_ ?_) ?_
    all_goals
      rw [List.forall₂_map_left_iff, List.forall₂_same]
      intro p hp
      rw [List.mem_filter] at hp
      obtain ⟨hp, hm⟩ := hp
      obtain ⟨o1, o2⟩ := hxy p hp
      rcases masks_cases p.1 p.2 with ⟨h, c⟩ | ⟨h, c⟩ | ⟨h, c⟩ <;> rw [h] at hm <;> try cases hm
    · intro s t
      simp only [Iv.mem_def, Prod.mk.injEq, ← c.1, ← c.2]
      constructor
      · rintro ⟨⟨a1, a2⟩, b1, b2⟩
        exact ⟨le_antisymm a2 a1, le_antisymm b2 b1⟩
      · rintro ⟨rfl, rfl⟩
        exact ⟨⟨le_rfl, le_rfl⟩, le_rfl, le_rfl⟩
    · exact ⟨rfl, c⟩
    · exact ⟨rfl, c⟩

example : scatter ([⟨.classical, 1, 2⟩, ⟨.classical, 3, 3⟩, ⟨.classical, 0, 0⟩] : List (Iv ℚ))
    [⟨.classical, 5, 6⟩, ⟨.classical, 1, 2⟩, ⟨.classical, 7, 7⟩] =
    .ok [.dot (0, 7), .outline [(3, 1), (3, 2), (3, 2), (3, 1)], .filled [(1, 5), (1, 6), (2, 6), (2, 5)]] := by
  decide +kernel

/-- C100 (the outline): consecutive corners lie on a common side, and the polygon spanned by them is the box. -/
theorem C100_corners [IsStrictOrderedRing K] (x y : Iv K) (hx : Ordinary x) (hy : Ordinary y) :
    (∃ p q r t : K × K, corners x y = [p, q, r, t] ∧ p.1 = q.1 ∧ q.2 = r.2 ∧ r.1 = t.1 ∧ t.2 = p.2) ∧
    convexHull K {p | p ∈ corners x y} = {p | p.1 ∈ x ∧ p.2 ∈ y} := by
  refine ⟨⟨_, _, _, _, rfl, rfl, rfl, rfl, rfl⟩, ?_⟩
  have e : {p | p ∈ corners x y} = ({x.a, x.b} : Set K) ×ˢ ({y.a, y.b} : Set K) := by
    ext ⟨s, t⟩
    simp only [corners, Set.mem_setOf_eq, List.mem_cons, Prod.mk.injEq, List.not_mem_nil, or_false, Set.mem_prod,
      Set.mem_insert_iff, Set.mem_singleton_iff]
    tauto
  rw [e, convexHull_prod, convexHull_pair, convexHull_pair, segment_eq_Icc hx.2, segment_eq_Icc hy.2]
  ext ⟨s, t⟩
  simp only [Set.mem_prod, Set.mem_Icc, Set.mem_setOf_eq, Iv.mem_def]

end IntvalPy
