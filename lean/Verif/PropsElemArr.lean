import Verif.ModelElemArr
import Verif.PropsNest
import Verif.PropsElem
import Verif.PropsTrig
import Verif.PropsObjects

/-!
# C140: the elementary functions work element by element on arrays and nested lists
-/

set_option autoImplicit false
set_option linter.unusedSectionVars false

namespace IntvalPy
open Spec

variable {K : Type*} [Field K] [LinearOrder K] [IsStrictOrderedRing K]

/-- `Holds x idx X`: at the multi-index the argument holds the interval `X`, or the number whose degenerate interval is
`X`. -/
def Holds (x : Nest K) (idx : List ℕ) (X : Iv K) : Prop := ∃ e, Item x idx e ∧ Repr e X

theorem rowMajorIdx_exists : ∀ (sh : List ℕ) (k : ℕ), k < cells sh → ∃ idx, rowMajorIdx sh idx = some k
  | [], k, h => ⟨[], by simp [cells] at h; simp [rowMajorIdx, h]⟩
  | n :: sh, k, h => by
    have hc : 0 < cells sh := by
      rcases Nat.eq_zero_or_pos (cells sh) with h0 | h0
      · simp [cells, h0] at h
      · exact h0
    obtain ⟨is, his⟩ := rowMajorIdx_exists sh (k % cells sh) (Nat.mod_lt _ hc)
    refine ⟨(k / cells sh) :: is, ?_⟩
    have hk : k / cells sh < n := by
      rw [Nat.div_lt_iff_lt_mul hc]; simpa [cells] using h
    simp only [rowMajorIdx, if_pos hk, his, Option.map_some, Option.some.injEq]
    rw [mul_comm]; exact Nat.div_add_mod _ _

/-- Walking through a list with `mapM` in `Except`: either every call succeeds, or the first one that fails gives the
exception. -/
theorem mapM_first {α β : Type*} (f : α → Except Err β) : ∀ l : List α,
    (∃ out, l.mapM f = .ok out ∧ out.length = l.length ∧ ∀ (k : ℕ) (X : α), l[k]? = some X → ∃ y, f X = .ok y ∧ out[k]? = some y) ∨
    (∃ (k : ℕ) (X : α) (e : Err), l[k]? = some X ∧ f X = .error e ∧ l.mapM f = .error e ∧
      ∀ (j : ℕ) (Y : α), j < k → l[j]? = some Y → ∃ y, f Y = .ok y)
  | [] => Or.inl ⟨[], rfl, rfl, by simp⟩
  | a :: l => by
    cases ha : f a with
    | error e =>
      refine Or.inr ⟨0, a, e, rfl, ha, by rw [List.mapM_cons, ha]; rfl, by simp⟩
    | ok y =>
      rcases mapM_first f l with ⟨out, h1, h2, h3⟩ | ⟨k, X, e, h1, h2, h3, h4⟩
      · refine Or.inl ⟨y :: out, by rw [List.mapM_cons, ha, h1]; rfl, by simp [h2], ?_⟩
        rintro (_ | k) X hX
        · simp only [List.getElem?_cons_zero, Option.some.injEq] at hX
          subst hX; exact ⟨y, ha, rfl⟩
        · simpa using h3 k X (by simpa using hX)
      · refine Or.inr ⟨k + 1, X, e, by simpa using h1, h2, by rw [List.mapM_cons, ha, h3]; rfl, ?_⟩
        rintro (_ | j) Y hj hY
        · simp only [List.getElem?_cons_zero, Option.some.injEq] at hY
          subst hY; exact ⟨y, ha⟩
        · exact h4 j Y (by omega) (by simpa using hY)

/-- What `asinterval` makes of anything with a shape that is not a single number or interval. -/
theorem asinterval_holds (R : Rnd K) (x : Nest K) (hw : WellFormed x) (s : List ℕ) (hs : HasShape x s)
    (hx : (∀ c, x ≠ .num c) ∧ ∀ X, x ≠ .iv X) :
    ∃ data, asintervalNest R x = .ok (.arr s data) ∧ data.length = cells s ∧
      ∀ idx k, rowMajorIdx s idx = some k → ∃ X, Holds x idx X ∧ data[k]? = some X := by
  obtain ⟨h1, _, _, _, h5⟩ := C99_asinterval R x hw
  cases x with
  | num c => exact absurd rfl (hx.1 c)
  | iv X => exact absurd rfl (hx.2 X)
  | arr sh d =>
    cases hs with
    | arr => ?_
    cases hw with
    | arr _ _ hl => ?_
    refine ⟨d, h5 _ _ rfl, hl, fun idx k hk => ?_⟩
    have hlt := rowMajorIdx_lt hk
    obtain ⟨X, hX⟩ : ∃ X, d[k]? = some X := ⟨d[k], List.getElem?_eq_getElem (by omega)⟩
    exact ⟨X, ⟨.inr X, .arr _ _ _ k X hk hX, rfl⟩, hX⟩
  | nd sh d =>
    obtain ⟨data, e1, e2, e3⟩ := h1 s hs (Or.inr ⟨_, _, rfl⟩)
    exact ⟨data, e1, e2, fun idx k hk => by obtain ⟨e, X, i1, i2, i3⟩ := e3 idx k hk; exact ⟨X, ⟨e, i1, i3⟩, i2⟩⟩
  | seq xs =>
    obtain ⟨data, e1, e2, e3⟩ := h1 s hs (Or.inl ⟨_, rfl⟩)
    exact ⟨data, e1, e2, fun idx k hk => by obtain ⟨e, X, i1, i2, i3⟩ := e3 idx k hk; exact ⟨X, ⟨e, i1, i3⟩, i2⟩⟩

/-- C140: an elementary function `f` of an argument with a shape. If `f` succeeds on every element, the result is an
array of that shape with `f` of the element at every multi-index; otherwise the exception of the first element (in
row-major order) on which `f` fails is raised. An argument without elements raises `ValueError`, a ragged list
`TypeError`; a number is treated as the degenerate interval. -/
theorem C140_elementwise {β : Type*} (R : Rnd K) (f : Iv K → Except Err β) (x : Nest K) (hw : WellFormed x) :
    (∀ s, HasShape x s → (∀ c, x ≠ .num c) → (∀ X, x ≠ .iv X) → 0 < cells s →
      (∃ out, elemNest R f x = .ok (.arr s out) ∧ out.length = cells s ∧
        ∀ idx k, rowMajorIdx s idx = some k → ∃ X y, Holds x idx X ∧ f X = .ok y ∧ out[k]? = some y) ∨
      (∃ idx k X e, rowMajorIdx s idx = some k ∧ Holds x idx X ∧ f X = .error e ∧ elemNest R f x = .error e ∧
        ∀ idx' j, rowMajorIdx s idx' = some j → j < k → ∃ Y y, Holds x idx' Y ∧ f Y = .ok y)) ∧
    (∀ s, HasShape x s → cells s = 0 → elemNest R f x = .error .valueError) ∧
    ((∀ s, ¬ HasShape x s) → elemNest R f x = .error .typeError) ∧
    (∀ c y, x = .num c → f ⟨.classical, c, c⟩ = .ok y → elemNest R f x = .ok (.one y)) ∧
    (∀ c e, x = .num c → f ⟨.classical, c, c⟩ = .error e → elemNest R f x = .error e) ∧
    (∀ X y, x = .iv X → f X = .ok y → elemNest R f x = .ok (.one y)) ∧
    (∀ X e, x = .iv X → f X = .error e → elemNest R f x = .error e) := by
  obtain ⟨_, h2, h3, h4, _⟩ := C99_asinterval R x hw
  refine ⟨fun s hs hn hi hc => ?_, fun s hs hc => ?_, fun hn => ?_, ?_, ?_, ?_, ?_⟩
  · obtain ⟨data, e1, e2, e3⟩ := asinterval_holds R x hw s hs ⟨hn, hi⟩
    have hne : data ≠ [] := by rintro rfl; simp at e2; omega
    rcases mapM_first f data with ⟨out, o1, o2, o3⟩ | ⟨k, X, e, o1, o2, o3, o4⟩
    · left
      refine ⟨out, by simp only [elemNest, e1, npVectorize, if_neg hne, o1], o2.trans e2, fun idx k hk => ?_⟩
      obtain ⟨X, hX, hd⟩ := e3 idx k hk
      obtain ⟨y, hy, ho⟩ := o3 k X hd
      exact ⟨X, y, hX, hy, ho⟩
    · right
      have hk : k < cells s := by
        rw [← e2]; exact (List.getElem?_eq_some_iff.mp o1).1
      obtain ⟨idx, hidx⟩ := rowMajorIdx_exists s k hk
      obtain ⟨X', hX, hd⟩ := e3 idx k hidx
      rw [o1] at hd; cases hd
      refine ⟨idx, k, X, e, hidx, hX, o2, by simp only [elemNest, e1, npVectorize, if_neg hne, o3], ?_⟩
      intro idx' j hj hjk
      obtain ⟨Y, hY, hd⟩ := e3 idx' j hj
      obtain ⟨y, hy⟩ := o4 j Y hjk hd
      exact ⟨Y, y, hY, hy⟩
  · have hn : ∀ c, x ≠ .num c := by rintro c rfl; cases hs; simp [cells] at hc
    have hi : ∀ X, x ≠ .iv X := by rintro c rfl; cases hs; simp [cells] at hc
    obtain ⟨data, e1, e2, _⟩ := asinterval_holds R x hw s hs ⟨hn, hi⟩
    have : data = [] := List.eq_nil_of_length_eq_zero (e2.trans hc)
    simp only [elemNest, e1, npVectorize, if_pos this]
  · simp only [elemNest, h2 hn]
  · intro c y hx hf
    simp only [elemNest, h3 c hx, hf]
  · intro c y hx hf
    simp only [elemNest, h3 c hx, hf]
  · intro c y hx hf
    simp only [elemNest, h4 c hx, hf]
  · intro c y hx hf
    simp only [elemNest, h4 c hx, hf]

/-- If `f` keeps a promise on every interval held by the argument, the result keeps it at every place. -/
theorem elemNest_promise {β : Type*} (R : Rnd K) (f : Iv K → Except Err β) (P : Iv K → β → Prop) (x : Nest K)
    (hw : WellFormed x) (s : List ℕ) (hs : HasShape x s) (hn : ∀ c, x ≠ .num c) (hi : ∀ X, x ≠ .iv X)
    (hc : 0 < cells s) (hf : ∀ idx X, Holds x idx X → ∃ y, f X = .ok y ∧ P X y) :
    ∃ out, elemNest R f x = .ok (.arr s out) ∧ out.length = cells s ∧
      ∀ idx k, rowMajorIdx s idx = some k → ∃ X y, Holds x idx X ∧ out[k]? = some y ∧ P X y := by
  rcases (C140_elementwise R f x hw).1 s hs hn hi hc with ⟨out, h1, h2, h3⟩ | ⟨idx, k, X, e, h1, h2, h3, _⟩
  · refine ⟨out, h1, h2, fun idx k hk => ?_⟩
    obtain ⟨X, y, hX, hy, ho⟩ := h3 idx k hk
    obtain ⟨y', hy', hP⟩ := hf idx X hX
    rw [hy] at hy'; cases hy'
    exact ⟨X, y, hX, ho, hP⟩
  · obtain ⟨y, hy, _⟩ := hf idx X h2
    rw [h3] at hy; cases hy

/-- C140 for `sin` and `cos` of arrays and lists of intervals and numbers up to `2 ^ 20`: every value of the function
on an element lies in the element of the result at the same place. -/
theorem C140_trig_encloses (R : Rnd ℚ) (lm : Libm) (hs : TrigOK lm.sin Real.sin) (hc : TrigOK lm.cos Real.cos)
    (m : Mode) (x : Nest ℚ) (hw : WellFormed x) (s : List ℕ) (hsh : HasShape x s) (hn : ∀ c, x ≠ .num c)
    (hi : ∀ X, x ≠ .iv X) (h0 : 0 < cells s)
    (hX : ∀ idx X, Holds x idx X → X.a ≤ X.b ∧ |X.a| ≤ 2 ^ 20 ∧ |X.b| ≤ 2 ^ 20) :
    (∃ out, sinNest R lm m x = .ok (.arr s out) ∧ out.length = cells s ∧
      ∀ idx k, rowMajorIdx s idx = some k → ∃ X y, Holds x idx X ∧ out[k]? = some y ∧
        ∀ t : ℝ, X.a ≤ t → t ≤ X.b → y.Mem (Real.sin t)) ∧
    (∃ out, cosNest R lm m x = .ok (.arr s out) ∧ out.length = cells s ∧
      ∀ idx k, rowMajorIdx s idx = some k → ∃ X y, Holds x idx X ∧ out[k]? = some y ∧
        ∀ t : ℝ, X.a ≤ t → t ≤ X.b → y.Mem (Real.cos t)) := by
  constructor
  · refine elemNest_promise R _ (fun X (y : FIv) => ∀ t : ℝ, X.a ≤ t → t ≤ X.b → y.Mem (Real.sin t)) x hw s hsh hn hi h0 ?_
    intro idx X h
    obtain ⟨h1, h2, h3⟩ := hX idx X h
    obtain ⟨u, v, e1, e2, _⟩ := C29_sin_encloses_partial lm hs X.toFIv m X.a X.b ⟨trivial, rfl, h2⟩ ⟨trivial, rfl, h3⟩ h1
    exact ⟨_, by rw [e1], fun t ht1 ht2 => e2 t ⟨ht1, ht2⟩⟩
  · refine elemNest_promise R _ (fun X (y : FIv) => ∀ t : ℝ, X.a ≤ t → t ≤ X.b → y.Mem (Real.cos t)) x hw s hsh hn hi h0 ?_
    intro idx X h
    obtain ⟨h1, h2, h3⟩ := hX idx X h
    obtain ⟨u, v, e1, e2, _⟩ := C29_cos_encloses_partial lm hc X.toFIv m X.a X.b ⟨trivial, rfl, h2⟩ ⟨trivial, rfl, h3⟩ h1
    exact ⟨_, by rw [e1], fun t ht1 ht2 => e2 t ⟨ht1, ht2⟩⟩

/-- C140 for `exp` with upper endpoints up to 400. -/
theorem C140_exp_encloses (R : Rnd ℚ) (lm : Libm) (hE : ExpOK lm.exp)
    (m : Mode) (x : Nest ℚ) (hw : WellFormed x) (s : List ℕ) (hsh : HasShape x s) (hn : ∀ c, x ≠ .num c)
    (hi : ∀ X, x ≠ .iv X) (h0 : 0 < cells s) (hX : ∀ idx X, Holds x idx X → X.b ≤ 400) :
    ∃ out, expNest R lm m x = .ok (.arr s out) ∧ out.length = cells s ∧
      ∀ idx k, rowMajorIdx s idx = some k → ∃ X y, Holds x idx X ∧ out[k]? = some y ∧
        ∀ t : ℝ, X.a ≤ t → t ≤ X.b → y.Mem (Real.exp t) := by
  refine elemNest_promise R _ (fun X (y : FIv) => ∀ t : ℝ, X.a ≤ t → t ≤ X.b → y.Mem (Real.exp t)) x hw s hsh hn hi h0 ?_
  intro idx X h
  obtain ⟨Y, e1, e2⟩ := C28_exp_encloses_moderate lm hE X.toFIv m X.b ⟨trivial, trivial⟩ rfl (hX idx X h)
  exact ⟨_, by rw [e1], fun t ht1 ht2 => e2 t ⟨ht1, ht2⟩⟩

/-- C140 for `log` and `sqrt` of intervals of doubles with a positive part. -/
theorem C140_log_sqrt_encloses (R : Rnd ℚ) (lm : Libm) (hE : ExpOK lm.exp) (hL : LogOK lm.log)
    (m : Mode) (x : Nest ℚ) (hw : WellFormed x) (s : List ℕ) (hsh : HasShape x s) (hn : ∀ c, x ≠ .num c)
    (hi : ∀ X, x ≠ .iv X) (h0 : 0 < cells s)
    (hX : ∀ idx X, Holds x idx X → X.cls = .classical ∧ X.a ≤ X.b ∧ 0 < X.b ∧ X.b ≤ maxFin ∧ IsF X.a) :
    (∃ out, logNest R lm m x = .ok (.arr s out) ∧ out.length = cells s ∧
      ∀ idx k, rowMajorIdx s idx = some k → ∃ X y, Holds x idx X ∧ out[k]? = some y ∧
        ∀ t : ℝ, 0 < t → X.a ≤ t → t ≤ X.b → y.Mem (Real.log t)) ∧
    (∃ out, sqrtNest R lm m x = .ok (.arr s out) ∧ out.length = cells s ∧
      ∀ idx k, rowMajorIdx s idx = some k → ∃ X y, Holds x idx X ∧ out[k]? = some y ∧
        ∀ t : ℝ, 0 ≤ t → X.a ≤ t → t ≤ X.b → y.Mem (Real.sqrt t)) := by
  constructor
  · refine elemNest_promise R _ (fun X (y : FIv) => ∀ t : ℝ, 0 < t → X.a ≤ t → t ≤ X.b → y.Mem (Real.log t)) x hw s hsh hn hi h0 ?_
    intro idx X h
    obtain ⟨_, h2, h3, _, _⟩ := hX idx X h
    have key := (C28_log_encloses lm hL X.toFIv m ⟨trivial, trivial⟩).1
    have hb : (0 : ℝ) < X.b := by exact_mod_cast h3
    have hab : (X.a : ℝ) ≤ X.b := by exact_mod_cast h2
    obtain ⟨Y, e1, _, _⟩ := key X.b hb ⟨hab, le_refl _⟩
    refine ⟨Y, by rw [e1], fun t h0t ht1 ht2 => ?_⟩
    obtain ⟨Y', e1', _, e2'⟩ := key t h0t ⟨ht1, ht2⟩
    rw [e1] at e1'; cases e1'; exact e2'
  · refine elemNest_promise R _ (fun X (y : FIv) => ∀ t : ℝ, 0 ≤ t → X.a ≤ t → t ≤ X.b → y.Mem (Real.sqrt t)) x hw s hsh hn hi h0 ?_
    intro idx X h
    obtain ⟨h1, h2, h3, h4, h5⟩ := hX idx X h
    have key := C28_sqrt_encloses lm hE hL X.toFIv m h1 ⟨trivial, trivial⟩ X.b rfl h4
      (fun p hp => by cases hp; exact h5)
    have hb : (0 : ℝ) ≤ X.b := by exact_mod_cast h3.le
    have hab : (X.a : ℝ) ≤ X.b := by exact_mod_cast h2
    obtain ⟨Y, e1, _⟩ := key X.b hb ⟨hab, le_refl _⟩
    refine ⟨Y, by rw [e1], fun t h0t ht1 ht2 => ?_⟩
    obtain ⟨Y', e1', e2'⟩ := key t h0t ⟨ht1, ht2⟩
    rw [e1] at e1'; cases e1'; exact e2'

/-- C140 for `sign`: at every place the exact range of the sign over the element. -/
theorem C140_sign (R : Rnd K) (x : Nest K) (hw : WellFormed x) (s : List ℕ) (hsh : HasShape x s)
    (hn : ∀ c, x ≠ .num c) (hi : ∀ X, x ≠ .iv X) (h0 : 0 < cells s) (hX : ∀ idx X, Holds x idx X → Ordinary X) :
    ∃ out, signNest R x = .ok (.arr s out) ∧ out.length = cells s ∧
      ∀ idx k, rowMajorIdx s idx = some k → ∃ X y, Holds x idx X ∧ out[k]? = some y ∧
        IsRange y (fun t => ∃ z ∈ X, t = ((SignType.sign z : SignType) : K)) :=
  elemNest_promise R _ (fun X y => IsRange y (fun t => ∃ z ∈ X, t = ((SignType.sign z : SignType) : K))) x hw s hsh hn hi h0
    fun idx X h => ⟨_, rfl, (C58_sign X (hX idx X h)).1⟩

/-- `sign([[Interval(-1, 2), 3], [0, -5]])`. -/
example : signNest Rnd.exact (.seq [.seq [.iv ⟨.classical, -1, 2⟩, .num 3], .seq [.num 0, .num (-5)]] : Nest ℚ) =
    .ok (.arr [2, 2] [⟨.classical, -1, 1⟩, ⟨.classical, 1, 1⟩, ⟨.classical, 0, 0⟩, ⟨.classical, -1, -1⟩]) := by
  decide +kernel

/-- A list without elements, a ragged list, and a number. -/
example : signNest Rnd.exact (.seq [] : Nest ℚ) = .error .valueError ∧
    signNest Rnd.exact (.seq [.seq [.num 1], .num 2] : Nest ℚ) = .error .typeError ∧
    signNest Rnd.exact (.num (-3) : Nest ℚ) = .ok (.one ⟨.classical, -1, -1⟩) := by decide +kernel

/-- The first exception wins. -/
example : elemNest Rnd.exact (fun X : Iv ℚ => if X.a < 0 then .error .overflowError else if X.b < 5 then .ok X else
    .error .zeroDivisionError) (.seq [.num 1, .num 7, .num (-1)]) = .error .zeroDivisionError := by decide +kernel

/-- The hypotheses of the enclosure theorems for `sin`, `cos`, `exp`, `log` and `sqrt` hold for
`[Interval(1, 2), 3]`. -/
example : ∃ x : Nest ℚ, WellFormed x ∧ HasShape x [2] ∧ (∀ c, x ≠ .num c) ∧ (∀ X, x ≠ .iv X) ∧
    ∀ idx X, Holds x idx X → X.cls = .classical ∧ X.a ≤ X.b ∧ 0 < X.b ∧ X.b ≤ 400 ∧ |X.a| ≤ 2 ^ 20 ∧ |X.b| ≤ 2 ^ 20 := by
  refine ⟨.seq [.iv ⟨.classical, 1, 2⟩, .num 3], ?_, ?_, by simp, by simp, ?_⟩
  · refine .seq _ fun y hy => ?_
    simp only [List.mem_cons, List.not_mem_nil, or_false] at hy
    rcases hy with rfl | rfl
    · exact .iv _
    · exact .num _
  · refine .seq _ _ _ fun y hy => ?_
    simp only [List.mem_cons, List.not_mem_nil, or_false] at hy
    rcases hy with rfl | rfl
    · exact .iv _
    · exact .num _
  · rintro idx X ⟨e, he, hr⟩
    cases he with
    | seq _ i is y _ hy hit =>
      match i, hy with
      | 0, hy =>
        simp only [List.getElem?_cons_zero, Option.some.injEq] at hy
        subst hy; cases hit; cases hr; norm_num
      | 1, hy =>
        simp only [List.getElem?_cons_succ, List.getElem?_cons_zero, Option.some.injEq] at hy
        subst hy; cases hit; cases hr; norm_num
      | i + 2, hy => simp at hy

/-- `len` of a number, a scalar interval and an array without axes is a `TypeError`. -/
example (q : ℚ) (X : Iv ℚ) : (Nest.num q).len = .error .typeError ∧ (Nest.iv X).len = .error .typeError ∧
    (Nest.arr [] [X]).len = .error .typeError ∧ (Nest.nd [] [q]).len = .error .typeError ∧
    (Nest.seq [Nest.num q, Nest.iv X]).len = .ok 2 := ⟨rfl, rfl, rfl, rfl, rfl⟩

end IntvalPy
