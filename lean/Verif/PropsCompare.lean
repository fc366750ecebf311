import Verif.ModelCompare
import Verif.PropsArrayOps
import Verif.PropsObjects

/-!
# Properties of comparisons with arrays and of the access to elements (C113, C114, C115, C19)
-/

set_option autoImplicit false
set_option linter.unusedSectionVars false

namespace IntvalPy

open Spec

variable {K : Type*} [Field K] [LinearOrder K] [IsStrictOrderedRing K]

/-! ## C113: comparisons -/

/-- The ends of a point or interval; a number has equal ends. -/
def CmpOpd.ends : CmpOpd K → List (K × K)
  | .num c => [(c, c)]
  | .npnum c => [(c, c)]
  | .iv X => [(X.a, X.b)]
  | .arr A => A.map fun X => (X.a, X.b)
  | .npa v => v.map fun c => (c, c)

/-- Number of elements of an array; `none` for numbers and intervals. -/
def CmpOpd.len : CmpOpd K → Option ℕ
  | .arr A => some A.length
  | .npa v => some v.length
  | _ => none

/-- Element `i` of an operand in a comparison: numbers, intervals and arrays with one element are repeated. -/
def CmpOpd.item (o : CmpOpd K) (i : ℕ) : Option (K × K) :=
  if o.len = none ∨ o.len = some 1 then o.ends[0]? else o.ends[i]?

/-- The number of elements of the result belongs to the numbers of elements of the operands. -/
def JointLen : Option ℕ → Option ℕ → Option ℕ → Prop
  | none, none, k => k = none
  | none, some n, k => k = some n
  | some m, none, k => k = some m
  | some m, some n, k => (m = n ∧ k = some m) ∨ (m = 1 ∧ k = some n) ∨ (n = 1 ∧ k = some m)

/-- The comparison as defined for two intervals given by their ends. -/
def CmpOp.Holds : CmpOp → K × K → K × K → Prop
  | .lt, p, q => p.1 < q.1 ∧ p.2 < q.2
  | .le, p, q => p.1 ≤ q.1 ∧ p.2 ≤ q.2
  | .eq, p, q => p.1 = q.1 ∧ p.2 = q.2
  | .ne, p, q => ¬ (p.1 = q.1 ∧ p.2 = q.2)
  | .gt, p, q => q.1 < p.1 ∧ q.2 < p.2
  | .ge, p, q => q.1 ≤ p.1 ∧ q.2 ≤ p.2

/-- Number of elements of a result. -/
def CmpRes.len : CmpRes → Option ℕ
  | .one _ => none
  | .array l => some l.length

/-- Truth values of a result. -/
def CmpRes.vals : CmpRes → List Bool
  | .one t => [t]
  | .array l => l

/-- The result answers the comparison of `l` and `r` element by element. -/
def Answers (op : CmpOp) (l r : CmpOpd K) (res : CmpRes) : Prop :=
  JointLen l.len r.len res.len ∧
    ∀ i t, res.vals[i]? = some t → ∃ p q, l.item i = some p ∧ r.item i = some q ∧ (t = true ↔ op.Holds p q)

/-- An interval takes part. -/
def CmpOpd.isIv : CmpOpd K → Prop
  | .iv _ => True
  | .arr _ => True
  | _ => False

/-- C113: a comparison in which an interval takes part is answered element by element when the shapes fit. -/
def C113_statement (K : Type*) [Field K] [LinearOrder K] [IsStrictOrderedRing K] : Prop :=
  ∀ (op : CmpOp) (l r : CmpOpd K), l.isIv ∨ r.isIv → (∃ k, JointLen l.len r.len k) →
    ∃ res, pyCompare op l r = some (.ok res) ∧ Answers op l r res

/-- The pairs of operands that raise whatever their values are, with the exception. -/
def Unsupported : CmpOpd K → CmpOpd K → Err → Prop
  | .arr _, .iv _, e => e = .notImplementedError
  | .iv _, .arr _, e => e = .typeError
  | .iv _, .npa _, e => e = .typeError
  | .npnum _, .iv _, e => e = .notImplementedError
  | .npa _, .iv _, e => e = .notImplementedError
  | .npnum _, .arr _, e => e = .exception
  | .npa _, .arr _, e => e = .exception
  | _, _, _ => False

theorem Iv.cmp_num (op : CmpOp) (X : Iv K) (c : K) :
    ∃ t, Iv.cmp op X (.num c) = .ok t ∧ (t = true ↔ op.Holds (X.a, X.b) (c, c)) := by
  cases op <;>
    simp [Iv.cmp, Iv.lt, Iv.le, Iv.eq, Iv.ne, Iv.gt, Iv.ge, Iv.cmpAnd, CmpOp.Holds, imp_iff_not_or]

theorem Iv.cmp_iv (op : CmpOp) (X Y : Iv K) :
    ∃ t, Iv.cmp op X (.iv Y) = .ok t ∧ (t = true ↔ op.Holds (X.a, X.b) (Y.a, Y.b)) := by
  cases op <;>
    simp [Iv.cmp, Iv.lt, Iv.le, Iv.eq, Iv.ne, Iv.gt, Iv.ge, Iv.cmpAnd, CmpOp.Holds, imp_iff_not_or]

theorem CmpOp.holds_swap (op : CmpOp) (p q : K × K) : op.swap.Holds p q ↔ op.Holds q p := by
  cases op <;> simp [CmpOp.swap, CmpOp.Holds, eq_comm]

theorem objLoop_cmp {α : Type*} (f : α → Except Err Bool) (P : α → Prop)
    (hf : ∀ a, ∃ t, f a = .ok t ∧ (t = true ↔ P a)) (l : List α) :
    ∃ s, objLoop f l = .ok s ∧ s.length = l.length ∧
      ∀ (i : ℕ) (t : Bool), s[i]? = some t → ∃ a, l[i]? = some a ∧ (t = true ↔ P a) := by
  induction l with
  | nil => exact ⟨[], rfl, rfl, by simp⟩
  | cons x rest ih =>
    obtain ⟨s, hs, hlen, hval⟩ := ih
    obtain ⟨t, ht, hP⟩ := hf x
    refine ⟨t :: s, by simp [objLoop, ht, hs], by simp [hlen], ?_⟩
    intro i u hu
    cases i with
    | zero => simp at hu; exact ⟨x, by simp, hu ▸ hP⟩
    | succ i => simpa using hval i u (by simpa using hu)

theorem npBroadcast2_item {α β : Type*} {xs : List α} {ys : List β} {l : List (α × β)}
    (h : npBroadcast2 xs ys = .ok l) :
    ((xs.length = ys.length ∧ l.length = xs.length) ∨ (xs.length = 1 ∧ l.length = ys.length) ∨
      (ys.length = 1 ∧ l.length = xs.length)) ∧
    ∀ (i : ℕ) (p : α × β), l[i]? = some p →
      (if xs.length = 1 then xs[0]? else xs[i]?) = some p.1 ∧ (if ys.length = 1 then ys[0]? else ys[i]?) = some p.2 := by
  unfold npBroadcast2 at h
  split at h
  · rename_i hl
    cases h
    refine ⟨Or.inl ⟨hl, by simp [hl]⟩, ?_⟩
    intro i p hp
    rw [List.getElem?_zip_eq_some] at hp
    constructor
    · split
      · have : i = 0 := by
          have := (List.getElem?_eq_some_iff.mp hp.1).1; omega
        subst this; exact hp.1
      · exact hp.1
    · split
      · have : i = 0 := by
          have := (List.getElem?_eq_some_iff.mp hp.2).1; omega
        subst this; exact hp.2
      · exact hp.2
  · rename_i hl
    split at h
    · cases h
      refine ⟨Or.inr (Or.inl ⟨rfl, by simp⟩), ?_⟩
      intro i p hp
      rw [List.getElem?_map, Option.map_eq_some_iff] at hp
      obtain ⟨y, hy, rfl⟩ := hp
      refine ⟨by simp, ?_⟩
      rw [if_neg (by simpa using fun h => hl (by simpa using h.symm))]
      exact hy
    · cases h
      refine ⟨Or.inr (Or.inr ⟨rfl, by simp⟩), ?_⟩
      intro i p hp
      rw [List.getElem?_map, Option.map_eq_some_iff] at hp
      obtain ⟨y, hy, rfl⟩ := hp
      refine ⟨?_, by simp⟩
      rw [if_neg (by simpa using hl)]
      exact hy
    · cases h

theorem CmpOpd.item_arr (A : List (Iv K)) (i : ℕ) :
    (CmpOpd.arr A).item i = (if A.length = 1 then A[0]? else A[i]?).map fun X => (X.a, X.b) := by
  unfold CmpOpd.item CmpOpd.len CmpOpd.ends
  simp only [reduceCtorEq, Option.some.injEq, false_or, List.getElem?_map]
  split <;> rfl

theorem CmpOpd.item_npa (v : List K) (i : ℕ) :
    (CmpOpd.npa v).item i = (if v.length = 1 then v[0]? else v[i]?).map fun c => (c, c) := by
  unfold CmpOpd.item CmpOpd.len CmpOpd.ends
  simp only [reduceCtorEq, Option.some.injEq, false_or, List.getElem?_map]
  split <;> rfl

/-- An array compared with anything but an interval: either the shapes do not fit, or the answer is right. -/
theorem arrCmp_spec (op : CmpOp) (A : List (Iv K)) (r : CmpOpd K) (hr : ∀ X, r ≠ .iv X) :
    (arrCmp op A r = .error .valueError ∧ ¬ ∃ k, JointLen (CmpOpd.arr A).len r.len k) ∨
      ∃ res, arrCmp op A r = .ok res ∧ Answers op (.arr A) r res := by
  have pairs : ∀ {β : Type _} (ys : List β) (f : Iv K × β → Except Err Bool) (g : β → K × K)
      (r : CmpOpd K) (_ : r.len = some ys.length) (_ : ∀ i, r.item i = (if ys.length = 1 then ys[0]? else ys[i]?).map g)
      (_ : ∀ p, ∃ t, f p = .ok t ∧ (t = true ↔ op.Holds (p.1.a, p.1.b) (g p.2)))
      (out : Except Err CmpRes) (_ : ∀ e, npBroadcast2 A ys = .error e → out = .error e)
      (_ : ∀ l, npBroadcast2 A ys = .ok l → out = (objLoop f l).map .array),
      (out = .error .valueError ∧ ¬ ∃ k, JointLen (CmpOpd.arr A).len r.len k) ∨
        ∃ res, out = .ok res ∧ Answers op (.arr A) r res := by
    intro β ys f g r hlen hitem hf out hout1 hout2
    cases hb : npBroadcast2 A ys with
    | error e =>
      left
      have hout := hout1 e hb
      have he : e = .valueError := npBroadcast2_error A ys e hb
      refine ⟨by rw [hout, he], ?_⟩
      rintro ⟨k, hk⟩
      rw [hlen] at hk
      have hk' : (A.length = ys.length) ∨ A.length = 1 ∨ ys.length = 1 := by
        rcases hk with h | h | h
        · exact Or.inl h.1
        · exact Or.inr (Or.inl h.1)
        · exact Or.inr (Or.inr h.1)
      have := (npBroadcast2_fits A ys).mpr hk'
      obtain ⟨l, hl⟩ := this
      rw [hb] at hl; cases hl
    | ok l =>
      right
      have hout := hout2 l hb
      obtain ⟨s, hs, hsl, hsv⟩ := objLoop_cmp f _ hf l
      obtain ⟨hj, hv⟩ := npBroadcast2_item hb
      refine ⟨.array s, by rw [hout]; simp [hs, Except.map], ?_, ?_⟩
      · rw [hlen]
        show (A.length = ys.length ∧ some s.length = some A.length) ∨ (A.length = 1 ∧ some s.length = some ys.length) ∨
          (ys.length = 1 ∧ some s.length = some A.length)
        rw [hsl]
        rcases hj with h | h | h
        · exact Or.inl ⟨h.1, by rw [h.2]⟩
        · exact Or.inr (Or.inl ⟨h.1, by rw [h.2]⟩)
        · exact Or.inr (Or.inr ⟨h.1, by rw [h.2]⟩)
      · intro i t ht
        obtain ⟨p, hp, hP⟩ := hsv i t ht
        obtain ⟨h1, h2⟩ := hv i p hp
        exact ⟨(p.1.a, p.1.b), g p.2, by rw [CmpOpd.item_arr, h1]; rfl, by rw [hitem, h2]; rfl, hP⟩
  have scal : ∀ (c : K) (r : CmpOpd K) (_ : r.len = none) (_ : r.ends = [(c, c)]),
      ∃ res, (objLoop (fun o => Iv.cmp op o (.num c)) A).map CmpRes.array = .ok res ∧ Answers op (.arr A) r res := by
    intro c r hlen hends
    obtain ⟨s, hs, hsl, hsv⟩ := objLoop_cmp (fun o : Iv K => Iv.cmp op o (.num c)) _ (fun o => Iv.cmp_num op o c) A
    refine ⟨.array s, by simp [hs, Except.map], ?_, ?_⟩
    · rw [hlen]
      show some s.length = some A.length
      rw [hsl]
    · intro i t ht
      obtain ⟨X, hX, hP⟩ := hsv i t ht
      refine ⟨(X.a, X.b), (c, c), ?_, ?_, hP⟩
      · rw [CmpOpd.item_arr]
        split
        · have : i = 0 := by
            have := (List.getElem?_eq_some_iff.mp hX).1; omega
          subst this; rw [hX]; rfl
        · rw [hX]; rfl
      · unfold CmpOpd.item
        rw [hlen, hends]; simp
  cases r with
  | num c => exact Or.inr (scal c _ rfl rfl)
  | npnum c => exact Or.inr (scal c _ rfl rfl)
  | iv X => exact absurd rfl (hr X)
  | arr B =>
    exact pairs B (fun p => Iv.cmp op p.1 (.iv p.2)) (fun Y => (Y.a, Y.b)) (.arr B) rfl (CmpOpd.item_arr B)
      (fun p => Iv.cmp_iv op p.1 p.2) _ (fun e h => by simp [arrCmp, h]) (fun l h => by simp [arrCmp, h])
  | npa v =>
    exact pairs v (fun p => Iv.cmp op p.1 (.num p.2)) (fun c => (c, c)) (.npa v) rfl (CmpOpd.item_npa v)
      (fun p => Iv.cmp_num op p.1 p.2) _ (fun e h => by simp [arrCmp, h]) (fun l h => by simp [arrCmp, h])

theorem jointLen_comm (a b k : Option ℕ) : JointLen a b k ↔ JointLen b a k := by
  have one : ∀ a b k, JointLen a b k → JointLen b a k := by
    intro a b k h
    cases a <;> cases b <;> simp only [JointLen] at h ⊢ <;> try exact h
    rcases h with h | h | h
    · exact Or.inl ⟨h.1.symm, by rw [h.2, h.1]⟩
    · exact Or.inr (Or.inr h)
    · exact Or.inr (Or.inl h)
  exact ⟨one a b k, one b a k⟩

theorem Answers.swap {op : CmpOp} {l r : CmpOpd K} {res : CmpRes} (h : Answers op.swap l r res) :
    Answers op r l res := by
  refine ⟨(jointLen_comm _ _ _).mp h.1, ?_⟩
  intro i t ht
  obtain ⟨p, q, hp, hq, hP⟩ := h.2 i t ht
  exact ⟨q, p, hq, hp, hP.trans (CmpOp.holds_swap op p q)⟩

theorem answers_one {op : CmpOp} {l r : CmpOpd K} {p q : K × K} (hl : l.len = none) (hr : r.len = none)
    (el : l.ends = [p]) (er : r.ends = [q]) {t : Bool} (h : t = true ↔ op.Holds p q) : Answers op l r (.one t) := by
  refine ⟨by rw [hl, hr]; rfl, ?_⟩
  intro i u hu
  have hi : i = 0 := by
    have := (List.getElem?_eq_some_iff.mp hu).1
    simp [CmpRes.vals] at this; exact this
  subst hi
  have hu' : t = u := by simpa [CmpRes.vals] using hu
  exact ⟨p, q, by simp [CmpOpd.item, hl, el], by simp [CmpOpd.item, hr, er], hu' ▸ h⟩

/-- C113 (the part that holds): a comparison in which an interval takes part raises exactly for the unsupported pairs of
kinds and (with `ValueError`) for shapes that do not fit; otherwise the answer is right in every element. -/
theorem C113_comparisons_partial (op : CmpOp) (l r : CmpOpd K) (h : l.isIv ∨ r.isIv) :
    (∃ e, Unsupported l r e ∧ pyCompare op l r = some (.error e)) ∨
    ((∀ e, ¬ Unsupported l r e) ∧ (¬ ∃ k, JointLen l.len r.len k) ∧ pyCompare op l r = some (.error .valueError)) ∨
    ((∀ e, ¬ Unsupported l r e) ∧ ∃ res, pyCompare op l r = some (.ok res) ∧ Answers op l r res) := by
  cases l with
  | iv X =>
    cases r with
    | iv Y =>
      obtain ⟨t, ht, hP⟩ := Iv.cmp_iv op X Y
      exact Or.inr (Or.inr ⟨fun e h => h, .one t, by simp [pyCompare, ht, Except.map], answers_one rfl rfl rfl rfl hP⟩)
    | num c =>
      obtain ⟨t, ht, hP⟩ := Iv.cmp_num op X c
      exact Or.inr (Or.inr ⟨fun e h => h, .one t, by simp [pyCompare, ht, Except.map], answers_one rfl rfl rfl rfl hP⟩)
    | npnum c =>
      obtain ⟨t, ht, hP⟩ := Iv.cmp_num op X c
      exact Or.inr (Or.inr ⟨fun e h => h, .one t, by simp [pyCompare, ht, Except.map], answers_one rfl rfl rfl rfl hP⟩)
    | arr B => exact Or.inl ⟨_, rfl, by cases op <;> rfl⟩
    | npa v => exact Or.inl ⟨_, rfl, by cases op <;> rfl⟩
  | arr A =>
    by_cases hr : ∃ X, r = .iv X
    · obtain ⟨X, rfl⟩ := hr
      exact Or.inl ⟨_, rfl, rfl⟩
    · have hu : ∀ e, ¬ Unsupported (.arr A) r e := by
        intro e he
        cases r <;> first | exact he | exact hr ⟨_, rfl⟩
      have hp : pyCompare op (.arr A) r = some (arrCmp op A r) := by cases r <;> rfl
      rcases arrCmp_spec op A r (fun X hX => hr ⟨X, hX⟩) with h | ⟨res, h1, h2⟩
      · exact Or.inr (Or.inl ⟨hu, h.2, by rw [hp, h.1]⟩)
      · exact Or.inr (Or.inr ⟨hu, res, by rw [hp, h1], h2⟩)
  | num c =>
    cases r with
    | iv X =>
      obtain ⟨t, ht, hP⟩ := Iv.cmp_num op.swap X c
      exact Or.inr (Or.inr ⟨fun e h => h, .one t, by simp [pyCompare, ht, Except.map],
        answers_one rfl rfl rfl rfl (hP.trans (CmpOp.holds_swap op _ _))⟩)
    | arr A =>
      rcases arrCmp_spec op.swap A (.num c) (by simp) with h | ⟨res, h1, h2⟩
      · exact absurd ⟨some A.length, rfl⟩ h.2
      · exact Or.inr (Or.inr ⟨fun e h => h, res, by show some _ = _; rw [h1], h2.swap⟩)
    | num d => rcases h with h | h <;> exact h.elim
    | npnum d => rcases h with h | h <;> exact h.elim
    | npa d => rcases h with h | h <;> exact h.elim
  | npnum c =>
    cases r with
    | iv X => exact Or.inl ⟨_, rfl, rfl⟩
    | arr A => exact Or.inl ⟨_, rfl, rfl⟩
    | num d => rcases h with h | h <;> exact h.elim
    | npnum d => rcases h with h | h <;> exact h.elim
    | npa d => rcases h with h | h <;> exact h.elim
  | npa v =>
    cases r with
    | iv X => exact Or.inl ⟨_, rfl, rfl⟩
    | arr A => exact Or.inl ⟨_, rfl, rfl⟩
    | num d => rcases h with h | h <;> exact h.elim
    | npnum d => rcases h with h | h <;> exact h.elim
    | npa d => rcases h with h | h <;> exact h.elim

/-- C113 is false: an interval array cannot be compared with an interval, in either order; and a numpy scalar or array
on the left raises where the same comparison written the other way round works. -/
theorem C113_comparisons_false : ¬ C113_statement ℚ ∧
    (∀ (op : CmpOp) (A : List (Iv ℚ)) (X : Iv ℚ), pyCompare op (.arr A) (.iv X) = some (.error .notImplementedError) ∧
      pyCompare op (.iv X) (.arr A) = some (.error .typeError)) ∧
    (∃ (X : Iv ℚ) (c : ℚ), pyCompare .gt (.iv X) (.npnum c) = some (.ok (.one true)) ∧
      pyCompare .lt (.npnum c) (.iv X) = some (.error .notImplementedError) ∧
      pyCompare .lt (.num c) (.iv X) = some (.ok (.one true))) ∧
    (∃ (A : List (Iv ℚ)) (v : List ℚ), pyCompare .eq (.arr A) (.npa v) = some (.ok (.array [true, false])) ∧
      pyCompare .eq (.npa v) (.arr A) = some (.error .exception)) := by
  have h2 : ∀ (op : CmpOp) (A : List (Iv ℚ)) (X : Iv ℚ),
      pyCompare op (.arr A) (.iv X) = some (.error .notImplementedError) ∧
      pyCompare op (.iv X) (.arr A) = some (.error .typeError) := by
    intro op A X
    exact ⟨rfl, by cases op <;> rfl⟩
  refine ⟨?_, h2, ⟨⟨.classical, 4, 5⟩, 3, by decide +kernel, by decide +kernel, by decide +kernel⟩,
    ⟨[⟨.classical, 1, 1⟩, ⟨.classical, 1, 2⟩], [1, 1], by decide +kernel, by decide +kernel⟩⟩
  intro h
  obtain ⟨res, hres, _⟩ := h .eq (.arr [⟨.classical, 1, 2⟩]) (.iv ⟨.classical, 1, 2⟩) (Or.inl trivial)
    ⟨some 1, rfl⟩
  rw [(h2 _ _ _).1] at hres
  cases hres

example : pyCompare .lt (.arr [⟨.classical, 1, 2⟩, ⟨.classical, 0, 5⟩] : CmpOpd ℚ) (.arr [⟨.classical, 3, 4⟩]) =
      some (.ok (.array [true, false])) ∧
    pyCompare .ge (.num 3 : CmpOpd ℚ) (.arr [⟨.classical, 1, 2⟩, ⟨.classical, 0, 5⟩]) =
      some (.ok (.array [true, false])) ∧
    pyCompare .lt (.arr [⟨.classical, 1, 2⟩, ⟨.classical, 0, 5⟩] : CmpOpd ℚ) (.npa [1, 2, 3]) =
      some (.error .valueError) := by
  refine ⟨by decide +kernel, by decide +kernel, by decide +kernel⟩

/-- C113: the two ways to write a comparison agree whenever both answer, and always when no numpy scalar or array and no
pair of an array with an interval is involved. -/
theorem C113_two_ways (op : CmpOp) (l r : CmpOpd K) :
    (∀ s t, pyCompare op l r = some (.ok s) → pyCompare op.swap r l = some (.ok t) → s = t) ∧
    ((∀ e, ¬ Unsupported l r e) → (∀ e, ¬ Unsupported r l e) → (∀ v, l ≠ .npa v ∧ r ≠ .npa v) →
      (∀ c, l ≠ .npnum c ∧ r ≠ .npnum c) → pyCompare op l r = pyCompare op.swap r l) := by
  have swsw : op.swap.swap = op := by cases op <;> rfl
  have ii : ∀ X Y : Iv K, Iv.cmp op X (.iv Y) = Iv.cmp op.swap Y (.iv X) := by
    intro X Y
    cases op <;> simp [CmpOp.swap, Iv.cmp, Iv.lt, Iv.le, Iv.eq, Iv.ne, Iv.gt, Iv.ge, Iv.cmpAnd, eq_comm]
  have aa : ∀ A B : List (Iv K), arrCmp op A (.arr B) = arrCmp op.swap B (.arr A) := by
    intro A B
    have loop : ∀ l : List (Iv K × Iv K), objLoop (fun p => Iv.cmp op p.1 (.iv p.2)) l =
        objLoop (fun p => Iv.cmp op.swap p.1 (.iv p.2)) (l.map Prod.swap) := by
      intro l
      induction l with
      | nil => rfl
      | cons p rest ih => simp only [objLoop, List.map_cons, Prod.fst_swap, Prod.snd_swap, ih, ii p.1 p.2]
    have bc : npBroadcast2 B A = (npBroadcast2 A B).map (List.map Prod.swap) := by
      unfold npBroadcast2
      by_cases hl : A.length = B.length
      · rw [if_pos hl, if_pos hl.symm]
        simp [Except.map, List.zip_swap]
      · rw [if_neg hl, if_neg (Ne.symm hl)]
        rcases A with _ | ⟨x, _ | ⟨x', A⟩⟩ <;> rcases B with _ | ⟨y, _ | ⟨y', B⟩⟩ <;>
          simp_all [Except.map]
    simp only [arrCmp]
    rw [bc]
    cases npBroadcast2 A B with
    | error e => rfl
    | ok l => simp only [Except.map, loop l]
  refine ⟨?_, ?_⟩
  · intro s t hs ht
    cases l <;> cases r <;> simp only [pyCompare, Option.some.injEq, reduceCtorEq] at hs ht <;>
      first
        | (rw [ii] at hs; rw [hs] at ht; cases ht; rfl)
        | (rw [aa] at hs; rw [hs] at ht; cases ht; rfl)
        | (rw [swsw] at ht; rw [hs] at ht; cases ht; rfl)
        | (rw [hs] at ht; cases ht; rfl)
        | (exfalso; revert hs ht; cases op <;> simp [Iv.cmp, Iv.lt, Iv.le, Iv.eq, Iv.ne, Iv.gt, Iv.ge, Iv.cmpAnd, CmpOp.swap,
            Except.map, arrCmp]; done)
  · intro h1 h2 h3 h4
    cases l <;> cases r <;>
      first
        | rfl
        | exact absurd rfl (h3 _).1
        | exact absurd rfl (h3 _).2
        | exact absurd rfl (h4 _).1
        | exact absurd rfl (h4 _).2
        | exact absurd rfl (h1 _)
        | exact absurd rfl (h2 _)
        | (simp only [pyCompare, ii]; done)
        | (simp only [pyCompare, aa]; done)
        | (simp only [pyCompare, swsw]; done)

example : (∀ e, ¬ Unsupported (.num 3 : CmpOpd ℚ) (.arr [⟨.classical, 1, 2⟩]) e) ∧
    pyCompare .lt (.num 3 : CmpOpd ℚ) (.arr [⟨.classical, 4, 5⟩]) = some (.ok (.array [true])) :=
  ⟨fun _ h => h, by decide +kernel⟩

/-! ## C114: assignment to elements -/

/-- Every cell of the array holds an interval. -/
def AllIv (A : List (Slot K)) : Prop := ∀ s ∈ A, ∃ X, s = .iv X

/-- The key is legal for an array of `n` elements and names position `k` as its `j`-th one. -/
def SetKey.Names (n : ℕ) : SetKey → ℕ → ℕ → Prop
  | .int i, j, k => j = 0 ∧ k < n ∧ ((k : ℤ) = i ∨ (k : ℤ) = n + i)
  | .pos ps, j, k => ps[j]? = some k

/-- The interval that a value gives to the `j`-th position: one interval or number goes everywhere, as do arrays and
lists with one item; the items of other arrays and lists are dealt out in order; a number stands for a degenerate
interval. -/
def SetVal.Gives : SetVal K → ℕ → Iv K → Prop
  | .iv X, _, Y => Y = X
  | .num c, _, Y => Y.a = c ∧ Y.b = c
  | .arr B, j, Y => (if B.length = 1 then B[0]? else B[j]?) = some Y
  | .seq s, j, Y => ∃ c, (if s.length = 1 then s[0]? else s[j]?) = some (.inl c) ∧ Y.a = c ∧ Y.b = c

/-- The assignment did what it says: the cells named by the key hold the intervals of the value, all the others are as
before. -/
def Assigned (A A' : List (Slot K)) (key : SetKey) (v : SetVal K) : Prop :=
  A'.length = A.length ∧ (∀ j k, key.Names A.length j k → ∃ Y, A'[k]? = some (.iv Y) ∧ v.Gives j Y) ∧
    ∀ k, (∀ j, ¬ key.Names A.length j k) → A'[k]? = A[k]?

/-- The positions named by a key are different. -/
def SetKey.Distinct : SetKey → Prop
  | .int _ => True
  | .pos ps => ps.Nodup

/-- C114: an assignment that does not raise has stored the intervals of the value in the cells named by the key. -/
def C114_statement (K : Type*) [Field K] [LinearOrder K] [IsStrictOrderedRing K] : Prop :=
  ∀ (A A' : List (Slot K)) (key : SetKey) (v : SetVal K), AllIv A → key.Distinct → setItem A key v = .ok A' →
    Assigned A A' key v

/-- Array or list as a value. -/
def SetVal.isMany : SetVal K → Prop
  | .arr _ => True
  | .seq _ => True
  | _ => False

/-- Integer key. -/
def SetKey.isInt : SetKey → Prop
  | .int _ => True
  | _ => False

theorem wrapIndex_ok {n : ℕ} {i : ℤ} {k : ℕ} (h : wrapIndex n i = .ok k) :
    k < n ∧ ((k : ℤ) = i ∨ (k : ℤ) = n + i) := by
  unfold wrapIndex at h
  split at h
  · cases h; omega
  · split at h
    · cases h; omega
    · cases h

theorem wrapIndex_error {n : ℕ} {i : ℤ} {e : Err} :
    wrapIndex n i = .error e ↔ e = .indexError ∧ ¬ (-n ≤ i ∧ i < n) := by
  unfold wrapIndex
  by_cases h1 : 0 ≤ i ∧ i < n
  · rw [if_pos h1]; simp; omega
  · rw [if_neg h1]
    by_cases h2 : -n ≤ i ∧ i < 0
    · rw [if_pos h2]; simp; omega
    · rw [if_neg h2]
      constructor
      · intro h; cases h; exact ⟨rfl, by omega⟩
      · rintro ⟨rfl, _⟩; rfl

theorem storeAt_length (A : List (Slot K)) (pv : List (ℕ × Iv K)) : (storeAt A pv).length = A.length := by
  unfold storeAt
  induction pv generalizing A with
  | nil => rfl
  | cons p rest ih => simp only [List.foldl_cons]; rw [ih]; simp

theorem storeAt_other (A : List (Slot K)) (pv : List (ℕ × Iv K)) (k : ℕ) (h : k ∉ pv.map Prod.fst) :
    (storeAt A pv)[k]? = A[k]? := by
  unfold storeAt
  induction pv generalizing A with
  | nil => rfl
  | cons p rest ih =>
    simp only [List.foldl_cons]
    rw [ih _ (fun hk => h (by simp [hk]))]
    rw [List.getElem?_set_ne]
    intro hk; exact h (by simp [hk])

theorem storeAt_hit (A : List (Slot K)) (pv : List (ℕ × Iv K)) (hd : (pv.map Prod.fst).Nodup) (j k : ℕ) (X : Iv K)
    (hj : pv[j]? = some (k, X)) (hk : k < A.length) : (storeAt A pv)[k]? = some (.iv X) := by
  induction pv generalizing A j with
  | nil => simp at hj
  | cons p rest ih =>
    rw [List.map_cons, List.nodup_cons] at hd
    have hs : storeAt A (p :: rest) = storeAt (A.set p.1 (.iv p.2)) rest := rfl
    cases j with
    | zero =>
      have hp : p = (k, X) := by simpa using hj
      subst hp
      rw [hs, storeAt_other _ _ _ hd.1]
      simp [hk]
    | succ j =>
      rw [hs]
      exact ih _ hd.2 j (by simpa using hj) (by simpa using hk)

theorem setValue_many {v : SetVal K} {l : List (Iv K)} (h : setValue v = .ok (.inr l)) :
    v.isMany ∧ (∀ j Y, (if l.length = 1 then l[0]? else l[j]?) = some Y → v.Gives j Y) := by
  cases v with
  | iv X => simp [setValue] at h
  | num c => simp [setValue] at h
  | arr B =>
    have : B = l := by simpa [setValue] using h
    subst this
    exact ⟨trivial, fun j Y hY => hY⟩
  | seq s =>
    refine ⟨trivial, ?_⟩
    simp only [setValue] at h
    split at h
    · cases h
    · cases ho : objLoop pointItem s with
      | error e => rw [ho] at h; cases h
      | ok m =>
        rw [ho] at h
        have : m = l := by simpa using h
        subst this
        have hF := (objLoop_ok pointItem s m).mp ho
        have hlen : s.length = m.length := hF.length_eq
        have hget : ∀ (j : ℕ) (Y : Iv K), m[j]? = some Y → ∃ c, s[j]? = some (Sum.inl c) ∧ Y.a = c ∧ Y.b = c := by
          intro j Y hY
          obtain ⟨hj, rfl⟩ := List.getElem?_eq_some_iff.mp hY
          have hx := (List.forall₂_iff_get.mp hF).2 j (by omega) hj
          have hs : s[j]? = some s[j] := List.getElem?_eq_getElem (by omega)
          simp only [List.get_eq_getElem] at hx
          cases hc : s[j] with
          | inl c =>
            rw [hc] at hx
            have hx' := Except.ok.inj hx
            exact ⟨c, by rw [hs, hc], by rw [← hx'], by rw [← hx']⟩
          | inr X => rw [hc] at hx; cases hx
        intro j Y hY
        show ∃ c, (if s.length = 1 then s[0]? else s[j]?) = some (.inl c) ∧ Y.a = c ∧ Y.b = c
        rw [hlen]
        split
        · rename_i h1; rw [if_pos h1] at hY; exact hget 0 Y hY
        · rename_i h1; rw [if_neg h1] at hY; exact hget j Y hY

theorem setValue_one {v : SetVal K} {X : Iv K} (h : setValue v = .ok (.inl X)) :
    ¬ v.isMany ∧ ∀ j, v.Gives j X := by
  cases v with
  | iv Y =>
    have : Y = X := by simpa [setValue] using h
    subst this
    exact ⟨id, fun _ => rfl⟩
  | num c =>
    have : (⟨.classical, c, c⟩ : Iv K) = X := by simpa [setValue] using h
    subst this
    exact ⟨id, fun _ => ⟨rfl, rfl⟩⟩
  | arr B => simp [setValue] at h
  | seq s =>
    simp only [setValue] at h
    split at h
    · cases h
    · split at h <;> cases h

/-- C114 (the part that holds): unless an array or list is assigned to one element, an assignment that does not raise
does what it says. -/
theorem C114_assignment_partial (A A' : List (Slot K)) (key : SetKey) (v : SetVal K) (hd : key.Distinct)
    (hk : ¬ (key.isInt ∧ v.isMany)) (h : setItem A key v = .ok A') : Assigned A A' key v := by
  unfold setItem at h
  cases hv : setValue v with
  | error e => rw [hv] at h; cases h
  | ok w =>
    rw [hv] at h
    cases key with
    | int i =>
      cases hw : wrapIndex A.length i with
      | error e => simp only [hw] at h; cases h
      | ok k =>
        simp only [hw] at h
        cases w with
        | inr l => exact absurd ⟨trivial, (setValue_many hv).1⟩ hk
        | inl X =>
          cases h
          obtain ⟨hkl, hki⟩ := wrapIndex_ok hw
          have uniq : ∀ j k', (SetKey.int i).Names A.length j k' → k' = k := by
            rintro j k' ⟨-, h1, h2⟩
            omega
          refine ⟨by simp, ?_, ?_⟩
          · intro j k' hn
            obtain rfl := uniq j k' hn
            exact ⟨X, by simp [hkl], (setValue_one hv).2 j⟩
          · intro k' hn
            have : k ≠ k' := by
              rintro rfl
              exact hn 0 ⟨rfl, hkl, hki⟩
            rw [List.getElem?_set_ne this]
    | pos ps =>
      simp only at h
      by_cases hb : ps.all (· < A.length) = true
      · rw [if_pos hb] at h
        have hlt : ∀ k ∈ ps, k < A.length := by simpa using hb
        have rep : ∀ X, (∀ j, v.Gives j X) → Assigned A (storeAt A (ps.map fun p => (p, X))) (.pos ps) v := by
          intro X hX
          have hf : (ps.map fun p => (p, X)).map Prod.fst = ps := by simp [List.map_map, Function.comp_def]
          refine ⟨storeAt_length _ _, ?_, ?_⟩
          · intro j k hn
            have hn' : ps[j]? = some k := hn
            refine ⟨X, storeAt_hit A _ (by rw [hf]; exact hd) j k X (by simp [hn']) (hlt k ?_), hX j⟩
            exact List.mem_of_getElem? hn'
          · intro k hn
            rw [storeAt_other]
            rw [hf]
            intro hm
            obtain ⟨j, hj⟩ := List.getElem?_of_mem hm
            exact hn j hj
        cases w with
        | inl X => cases h; exact rep X (setValue_one hv).2
        | inr l =>
          obtain ⟨-, hg⟩ := setValue_many hv
          by_cases hl : l.length = ps.length
          · simp only [if_pos hl] at h
            cases h
            have hf : (ps.zip l).map Prod.fst = ps := by
              rw [List.map_fst_zip]; omega
            refine ⟨storeAt_length _ _, ?_, ?_⟩
            · intro j k hn
              have hn' : ps[j]? = some k := hn
              obtain ⟨hj, -⟩ := List.getElem?_eq_some_iff.mp hn'
              have hlj : l[j]? = some l[j] := List.getElem?_eq_getElem (by omega)
              refine ⟨l[j], storeAt_hit A _ (by rw [hf]; exact hd) j k _ ?_ (hlt k (List.mem_of_getElem? hn')), hg j _ ?_⟩
              · rw [List.getElem?_zip_eq_some]; exact ⟨hn', hlj⟩
              · split
                · have : j = 0 := by omega
                  subst this; exact hlj
                · exact hlj
            · intro k hn
              rw [storeAt_other]
              rw [hf]
              intro hm
              obtain ⟨j, hj⟩ := List.getElem?_of_mem hm
              exact hn j hj
          · simp only [if_neg hl] at h
            rcases l with _ | ⟨X, _ | ⟨Y, l⟩⟩
            · cases h
            · cases h
              exact rep X (fun j => hg j X (by simp))
            · cases h
      · rw [if_neg hb] at h; cases h

/-- C114: an array or list assigned to one element is stored as a whole in that cell (there is then no interval in it), and
from then on the endpoints of the array cannot be read. -/
theorem C114_one_element (A : List (Slot K)) (i : ℤ) (v : SetVal K) (l : List (Iv K)) (hv : setValue v = .ok (.inr l))
    (hi : -(A.length : ℤ) ≤ i ∧ i < A.length) :
    ∃ A' k, setItem A (.int i) v = .ok A' ∧ k < A.length ∧ A'[k]? = some (.nda l) ∧ ¬ AllIv A' ∧
      (AllIv A → endsA A' = .error .attributeError) := by
  cases hw : wrapIndex A.length i with
  | error e => exact absurd hi (wrapIndex_error.mp hw).2
  | ok k =>
    obtain ⟨hk, -⟩ := wrapIndex_ok hw
    have hget : (A.set k (.nda l))[k]? = some (.nda l) := by simp [hk]
    have hmem : Slot.nda l ∈ A.set k (.nda l) := List.mem_of_getElem? hget
    refine ⟨A.set k (.nda l), k, by simp [setItem, hv, hw], hk, hget, ?_, ?_⟩
    · intro h
      obtain ⟨X, hX⟩ := h _ hmem
      cases hX
    · intro hA
      have hne : A.set k (.nda l) ≠ [] := by
        intro h0; rw [h0] at hmem; cases hmem
      have aux : ∀ (f : Slot K → Except Err K) (_ : ∀ X, f (.iv X) = .ok X.a)
          (_ : ∀ m, f (.nda m) = .error .attributeError) (B : List (Slot K)), Slot.nda l ∈ B →
          objLoop f B = .error .attributeError := by
        intro f f1 f2 B
        induction B with
        | nil => intro h; cases h
        | cons s rest ih =>
          intro h
          cases s with
          | nda m => simp [objLoop, f2]
          | iv X =>
            have : Slot.nda l ∈ rest := by simpa using h
            simp [objLoop, f1, ih this]
      unfold endsA
      rw [if_neg (by simpa using hne)]
      exact aux _ (fun _ => rfl) (fun _ => rfl) _ hmem

/-- C114 is false: `A[0] = [5, 7]` raises nothing and puts an array into the cell, after which `A.a` raises. -/
theorem C114_assignment_false : ¬ C114_statement ℚ ∧
    ∃ A' : List (Slot ℚ), setItem [.iv ⟨.classical, 1, 2⟩, .iv ⟨.classical, 3, 4⟩] (.int 0) (.seq [.inl 5, .inl 7]) = .ok A' ∧
      A' = [.nda [⟨.classical, 5, 5⟩, ⟨.classical, 7, 7⟩], .iv ⟨.classical, 3, 4⟩] ∧
      endsA A' = .error .attributeError := by
  refine ⟨?_, _, rfl, rfl, rfl⟩
  intro h
  obtain ⟨-, h2, -⟩ := h [.iv ⟨.classical, 1, 2⟩, .iv ⟨.classical, 3, 4⟩] _ (.int 0) (.seq [.inl 5, .inl 7])
    (by intro s hs; simp at hs; rcases hs with rfl | rfl <;> exact ⟨_, rfl⟩) trivial rfl
  obtain ⟨Y, hY, -⟩ := h2 0 0 ⟨rfl, by decide, Or.inl rfl⟩
  simp at hY

/-- C114: what raises.  A list with an interval among its items raises `AssertionError`, an empty list `ValueError`,
whatever the key is; otherwise a position outside the array raises `IndexError`, and an array or list with a number of
items different from one and from the number of positions `ValueError`.  Nothing else raises. -/
theorem C114_raises (A : List (Slot K)) (key : SetKey) (v : SetVal K) (e : Err) :
    setItem A key v = .error e ↔
      (∃ s, v = .seq s ∧ ((s = [] ∧ e = .valueError) ∨ ((∃ X, .inr X ∈ s) ∧ e = .assertionError))) ∨
      ((∀ s, v = .seq s → s ≠ [] ∧ ∀ X, .inr X ∉ s) ∧
        ((∃ i, key = .int i ∧ ¬ (-(A.length : ℤ) ≤ i ∧ i < A.length) ∧ e = .indexError) ∨
         (∃ ps, key = .pos ps ∧ (((∃ p ∈ ps, A.length ≤ p) ∧ e = .indexError) ∨
           ((∀ p ∈ ps, p < A.length) ∧ e = .valueError ∧
             ((∃ B, v = .arr B ∧ B.length ≠ 1 ∧ B.length ≠ ps.length) ∨
              (∃ s, v = .seq s ∧ s.length ≠ 1 ∧ s.length ≠ ps.length))))))) := by
  -- the value
  have loopE : ∀ s : List (K ⊕ Iv K), (∃ X, Sum.inr X ∈ s) → objLoop pointItem s = .error .assertionError := by
    intro s
    induction s with
    | nil => rintro ⟨X, h⟩; cases h
    | cons x rest ih =>
      rintro ⟨X, h⟩
      cases x with
      | inr Y => rfl
      | inl c =>
        have : ∃ X, Sum.inr X ∈ rest := ⟨X, by simpa using h⟩
        simp [objLoop, pointItem, ih this]
  have loopO : ∀ s : List (K ⊕ Iv K), (∀ X, Sum.inr X ∉ s) → ∃ l, objLoop pointItem s = .ok l ∧ l.length = s.length := by
    intro s
    induction s with
    | nil => intro _; exact ⟨[], rfl, rfl⟩
    | cons x rest ih =>
      intro h
      cases x with
      | inr Y => exact absurd (by simp) (h Y)
      | inl c =>
        obtain ⟨l, hl, hlen⟩ := ih (fun X hX => h X (by simp [hX]))
        exact ⟨⟨.classical, c, c⟩ :: l, by simp [objLoop, pointItem, hl], by simp [hlen]⟩
  -- the keys, once the value is known
  have keyE : ∀ w, setValue v = .ok w → (setItem A key v = .error e ↔
      ((∃ i, key = .int i ∧ ¬ (-(A.length : ℤ) ≤ i ∧ i < A.length) ∧ e = .indexError) ∨
       (∃ ps, key = .pos ps ∧ (((∃ p ∈ ps, A.length ≤ p) ∧ e = .indexError) ∨
         ((∀ p ∈ ps, p < A.length) ∧ e = .valueError ∧ ∃ l, w = .inr l ∧ l.length ≠ 1 ∧ l.length ≠ ps.length))))) := by
    intro w hw
    unfold setItem
    rw [hw]
    cases key with
    | int i =>
      simp only [SetKey.int.injEq, exists_eq_left', reduceCtorEq, false_and, exists_false, or_false]
      cases hi : wrapIndex A.length i with
      | error e' =>
        obtain ⟨rfl, h2⟩ := wrapIndex_error.mp hi
        simp only [Except.error.injEq]
        exact ⟨fun h => ⟨h2, h.symm⟩, fun h => h.2.symm⟩
      | ok k =>
        have hk := wrapIndex_ok hi
        cases w <;> simp only [reduceCtorEq, false_iff, not_and] <;> intro h <;> omega
    | pos ps =>
      simp only [SetKey.pos.injEq, exists_eq_left', reduceCtorEq, false_and, exists_false, false_or]
      by_cases hb : ps.all (· < A.length) = true
      · have hlt : ∀ k ∈ ps, k < A.length := by simpa using hb
        rw [if_pos hb]
        have no : ¬ ((∃ p ∈ ps, A.length ≤ p) ∧ e = .indexError) := by
          rintro ⟨⟨p, hp, h⟩, -⟩
          have := hlt p hp; omega
        rw [or_iff_right no]
        cases w with
        | inl X => simp
        | inr l =>
          simp only [Sum.inr.injEq, exists_eq_left']
          by_cases hl : l.length = ps.length
          · simp [hl]
          · simp only [if_neg hl]
            rcases l with _ | ⟨X, _ | ⟨Y, l⟩⟩
            · simp only [Except.error.injEq, List.length_nil]
              exact ⟨fun h => ⟨hlt, h.symm, by omega, hl⟩, fun h => h.2.1.symm⟩
            · simp
            · simp only [Except.error.injEq, List.length_cons]
              exact ⟨fun h => ⟨hlt, h.symm, by omega, hl⟩, fun h => h.2.1.symm⟩
      · rw [if_neg hb]
        have hge : ∃ p ∈ ps, A.length ≤ p := by
          by_contra hcon
          exact hb (by simpa using fun k hk => not_le.mp fun h => hcon ⟨k, hk, h⟩)
        simp only [Except.error.injEq]
        constructor
        · intro h; exact Or.inl ⟨hge, h.symm⟩
        · rintro (h | ⟨h, -⟩)
          · exact h.2.symm
          · obtain ⟨p, hp, hq⟩ := hge
            have := h p hp; omega
  cases v with
  | iv X => rw [keyE _ rfl]; simp
  | num c => rw [keyE _ rfl]; simp
  | arr B => rw [keyE _ rfl]; simp
  | seq s =>
    simp only [SetVal.seq.injEq, exists_eq_left', forall_eq', reduceCtorEq, false_and, exists_false, false_or]
    by_cases h0 : s = []
    · subst h0
      have : setItem A key (.seq []) = .error .valueError := rfl
      rw [this]
      simp [eq_comm]
    · by_cases h1 : ∃ X, Sum.inr X ∈ s
      · have hv : setValue (.seq s) = .error .assertionError := by
          simp [setValue, h0, loopE s h1]
        have : setItem A key (.seq s) = .error .assertionError := by simp [setItem, hv]
        rw [this]
        constructor
        · intro h; cases h; exact Or.inl (Or.inr ⟨h1, rfl⟩)
        · rintro ((h | h) | h)
          · exact absurd h.1 h0
          · rw [h.2]
          · obtain ⟨X, hX⟩ := h1
            exact absurd hX (h.1.2 X)
      · obtain ⟨l, hl, hlen⟩ := loopO s (fun X hX => h1 ⟨X, hX⟩)
        have hv : setValue (.seq s) = .ok (.inr l) := by simp [setValue, h0, hl]
        rw [keyE _ hv]
        simp only [Sum.inr.injEq, exists_eq_left', hlen, h0, false_and, h1, or_self, false_or]
        have hn : s ≠ [] ∧ ∀ X, Sum.inr X ∉ s := ⟨h0, fun X hX => h1 ⟨X, hX⟩⟩
        rw [and_iff_right hn]

example : setItem ([.iv ⟨.classical, 1, 2⟩, .iv ⟨.classical, 3, 4⟩] : List (Slot ℚ)) (.pos [0, 1]) (.seq [.inl 5, .inl 7]) =
      .ok [.iv ⟨.classical, 5, 5⟩, .iv ⟨.classical, 7, 7⟩] ∧
    setItem ([.iv ⟨.classical, 1, 2⟩, .iv ⟨.classical, 3, 4⟩] : List (Slot ℚ)) (.int (-1)) (.num 9) =
      .ok [.iv ⟨.classical, 1, 2⟩, .iv ⟨.classical, 9, 9⟩] ∧
    setItem ([.iv ⟨.classical, 1, 2⟩] : List (Slot ℚ)) (.pos [0]) (.seq [.inr ⟨.classical, 5, 6⟩]) =
      .error .assertionError := ⟨rfl, rfl, rfl⟩

/-! ## C115: iteration -/

/-- C115: going through an array in a `for` loop gives the same objects as indexing it with `0, 1, ...`, from the end in
the case of `reversed`. -/
def C115_statement (K : Type*) [Field K] [LinearOrder K] [IsStrictOrderedRing K] : Prop :=
  (∀ (A : List (Iv K)) (i : ℕ) (x : ArrItem K), (iterItems1 A)[i]? = some x ↔ getItem1 A i = .ok x) ∧
  (∀ (A : List (List (Iv K))) (i : ℕ) (x : ArrItem K), (iterItems2 A)[i]? = some x ↔ getItem2 A i = .ok x) ∧
  (∀ A : List (Iv K), reversedItems A = .ok (iterItems1 A).reverse)

theorem wrapIndex_nat (n i : ℕ) : wrapIndex n i = if i < n then .ok i else .error .indexError := by
  unfold wrapIndex
  by_cases h : i < n
  · rw [if_pos ⟨by omega, by omega⟩, if_pos h]; simp
  · rw [if_neg (by omega), if_neg (by omega), if_neg h]

/-- C115 (the part that holds): for arrays with one axis the loop and the index agree, and negative indices count from
the end; for two axes the loop gives the same rows, but as plain numpy arrays. -/
theorem C115_iteration_partial (A : List (Iv K)) (M : List (List (Iv K))) (i : ℕ) :
    (∀ x, (iterItems1 A)[i]? = some x ↔ getItem1 A i = .ok x) ∧
    (i < A.length → getItem1 A (-(i : ℤ) - 1) = getItem1 A ((A.length - 1 - i : ℕ) : ℤ)) ∧
    (A.length ≤ i → getItem1 A i = .error .indexError) ∧
    (∀ row, (iterItems2 M)[i]? = some (.plain row) ↔ getItem2 M i = .ok (.array row)) ∧
    (iterItems2 M).length = M.length := by
  refine ⟨?_, ?_, ?_, ?_, by simp [iterItems2]⟩
  · intro x
    unfold getItem1 iterItems1
    rw [wrapIndex_nat, List.getElem?_map]
    by_cases h : i < A.length
    · simp [h]
    · rw [if_neg h]
      simp [List.getElem?_eq_none (not_lt.mp h)]
  · intro h
    unfold getItem1
    have h1 : wrapIndex A.length (-(i : ℤ) - 1) = .ok (A.length - 1 - i) := by
      unfold wrapIndex
      rw [if_neg (by omega), if_pos (by omega)]
      congr 1; omega
    rw [h1, wrapIndex_nat, if_pos (by omega)]
  · intro h
    unfold getItem1
    rw [wrapIndex_nat, if_neg (not_lt.mpr h)]
  · intro row
    unfold getItem2 iterItems2
    rw [wrapIndex_nat, List.getElem?_map]
    by_cases h : i < M.length
    · simp [h]
    · rw [if_neg h]
      simp [List.getElem?_eq_none (not_lt.mp h)]

/-- C115 is false: the rows of a matrix come out of a loop as plain numpy arrays (without `a`, `mid`, ...), and `reversed`
always raises. -/
theorem C115_iteration_false : ¬ C115_statement ℚ ∧
    (∀ (M : List (List (Iv ℚ))) (i : ℕ) (x : ArrItem ℚ), getItem2 M i = .ok x → (iterItems2 M)[i]? ≠ some x) ∧
    ∀ A : List (Iv ℚ), (reversedItems A : Except Err (List (ArrItem ℚ))) = .error .attributeError := by
  have h2 : ∀ (M : List (List (Iv ℚ))) (i : ℕ) (x : ArrItem ℚ), getItem2 M i = .ok x → (iterItems2 M)[i]? ≠ some x := by
    intro M i x hx hx'
    unfold iterItems2 at hx'
    rw [List.getElem?_map, Option.map_eq_some_iff] at hx'
    obtain ⟨row, -, rfl⟩ := hx'
    unfold getItem2 at hx
    split at hx
    · cases hx
    · split at hx <;> cases hx
  refine ⟨fun h => ?_, h2, fun _ => rfl⟩
  have := h.2.2 []
  cases this

example : getItem2 ([[⟨.classical, 1, 2⟩], [⟨.classical, 3, 4⟩]] : List (List (Iv ℚ))) 1 =
    .ok (.array [⟨.classical, 3, 4⟩]) := rfl

/-! ## C19: `in` with every kind of left operand -/

theorem inLoop_spec (f : ℕ → Iv K → Except Err Bool) (k : ℕ) (A : List (Iv K)) (o : Option Bool) (ho : o ≠ some true) :
    (inLoop f k A o = .ok true ↔ ∃ j X, A[j]? = some X ∧ f (k + j) X = .ok true ∧
      ∀ i < j, ∀ Y, A[i]? = some Y → f (k + i) Y = .ok false) ∧
    (inLoop f k A o = .ok false ↔ (A ≠ [] ∨ o = some false) ∧ ∀ j X, A[j]? = some X → f (k + j) X = .ok false) := by
  induction A generalizing k o with
  | nil =>
    cases o with
    | none => simp [inLoop]
    | some t =>
      cases t with
      | true => exact absurd rfl ho
      | false => simp [inLoop]
  | cons X rest ih =>
    have hstep : inLoop f k (X :: rest) o = match f k X with
        | .error e => .error e
        | .ok true => .ok true
        | .ok false => inLoop f (k + 1) rest (some false) := by cases o <;> rfl
    rw [hstep]
    cases hf : f k X with
    | error e =>
      simp only [reduceCtorEq, false_iff, not_exists, not_and]
      refine ⟨?_, ?_⟩
      · intro j Y hY h1 h2
        cases j with
        | zero => simp at hY; subst hY; simp [hf] at h1
        | succ j => have := h2 0 (by omega) X (by simp); simp [hf] at this
      · intro _ h
        have := h 0 X (by simp); simp [hf] at this
    | ok t =>
      cases t with
      | true =>
        simp only [true_iff, Except.ok.injEq, Bool.true_eq_false, false_iff, not_and]
        refine ⟨⟨0, X, by simp, by simpa using hf, by omega⟩, ?_⟩
        intro _ h
        have := h 0 X (by simp); simp [hf] at this
      | false =>
        obtain ⟨i1, i2⟩ := ih (k + 1) (some false) (by simp)
        simp only
        rw [i1, i2]
        constructor
        · constructor
          · rintro ⟨j, Y, hY, h1, h2⟩
            refine ⟨j + 1, Y, by simpa using hY, by rw [← h1]; congr 1; omega, ?_⟩
            intro i hi Z hZ
            cases i with
            | zero => simp at hZ; subst hZ; simpa using hf
            | succ i =>
              have := h2 i (by omega) Z (by simpa using hZ)
              rw [← this]; congr 1; omega
          · rintro ⟨j, Y, hY, h1, h2⟩
            cases j with
            | zero => simp at hY; subst hY; simp [hf] at h1
            | succ j =>
              refine ⟨j, Y, by simpa using hY, by rw [← h1]; congr 1; omega, ?_⟩
              intro i hi Z hZ
              have := h2 (i + 1) (by omega) Z (by simpa using hZ)
              rw [← this]; congr 1; omega
        · constructor
          · rintro ⟨-, h⟩
            refine ⟨Or.inl (by simp), ?_⟩
            intro j Y hY
            cases j with
            | zero => simp at hY; subst hY; simpa using hf
            | succ j =>
              have := h j Y (by simpa using hY)
              rw [← this]; congr 1; omega
          · rintro ⟨-, h⟩
            refine ⟨Or.inr rfl, ?_⟩
            intro j Y hY
            have := h (j + 1) Y (by simpa using hY)
            rw [← this]; congr 1; omega

/-- C19: `y in A` for a number or an interval means that some element of `A` contains `y`; it raises
(`UnboundLocalError`) exactly for an array without elements. -/
theorem C19_in_array_scalar (A : List (Iv K)) (hA : A ≠ []) (c : K) (Y : Iv K) (hY : Y.a ≤ Y.b) :
    (∃ t, arrIn A (.num c) = .ok t ∧ (t = true ↔ ∃ X ∈ A, c ∈ X)) ∧
    (∃ t, arrIn A (.iv Y) = .ok t ∧ (t = true ↔ ∃ X ∈ A, ∀ y, y ∈ Y → y ∈ X)) ∧
    arrIn ([] : List (Iv K)) (.num c) = .error .unboundLocalError ∧
    arrIn ([] : List (Iv K)) (.iv Y) = .error .unboundLocalError := by
  have gen : ∀ (g : Iv K → Bool), ∃ t, inLoop (fun _ X => .ok (g X)) 0 A none = .ok t ∧
      (t = true ↔ ∃ X ∈ A, g X = true) := by
    intro g
    by_cases h : ∃ X ∈ A, g X = true
    · have : inLoop (fun _ X => .ok (g X)) 0 A none = .ok true := by
        rw [(inLoop_spec _ 0 A none (by simp)).1]
        have hex : ∃ j : ℕ, ∃ X, A[j]? = some X ∧ g X = true := by
          obtain ⟨X, hX, hg⟩ := h
          obtain ⟨j, hj⟩ := List.getElem?_of_mem hX
          exact ⟨j, X, hj, hg⟩
        classical
        obtain ⟨X, hX, hg⟩ := Nat.find_spec hex
        refine ⟨Nat.find hex, X, hX, by rw [hg], ?_⟩
        intro i hi Z hZ
        have := Nat.find_min hex hi
        cases hz : g Z with
        | false => rfl
        | true => exact absurd ⟨Z, hZ, hz⟩ this
      exact ⟨true, this, by simp [h]⟩
    · have : inLoop (fun _ X => .ok (g X)) 0 A none = .ok false := by
        rw [(inLoop_spec _ 0 A none (by simp)).2]
        refine ⟨Or.inl hA, ?_⟩
        intro j X hX
        cases hz : g X with
        | false => rfl
        | true => exact absurd ⟨X, List.mem_of_getElem? hX, hz⟩ h
      exact ⟨false, this, by simp [h]⟩
  refine ⟨?_, ?_, rfl, rfl⟩
  · obtain ⟨t, h1, h2⟩ := gen (fun X => X.containsNum c)
    refine ⟨t, h1, h2.trans ?_⟩
    constructor
    · rintro ⟨X, hX, h⟩; exact ⟨X, hX, ((C19_in_scalar X Y c).1).mp h⟩
    · rintro ⟨X, hX, h⟩; exact ⟨X, hX, ((C19_in_scalar X Y c).1).mpr h⟩
  · obtain ⟨t, h1, h2⟩ := gen (fun X => X.containsIv Y)
    refine ⟨t, h1, h2.trans ?_⟩
    have key : ∀ X : Iv K, X.containsIv Y = true ↔ ∀ y, y ∈ Y → y ∈ X := by
      intro X
      unfold Iv.containsIv
      rw [Bool.and_eq_true, decide_eq_true_eq, decide_eq_true_eq]
      constructor
      · intro h y hy; exact ⟨h.1.trans hy.1, hy.2.trans h.2⟩
      · intro h; exact ⟨(h Y.a ⟨le_rfl, hY⟩).1, (h Y.b ⟨hY, le_rfl⟩).2⟩
    simp only [key]

/-- C19: `B in A` for an interval array `B` at least as long as `A` means that some element of `A` contains the element
of `B` in the same place (one is enough); elements of `B` beyond the length of `A` are not looked at. -/
theorem C19_in_array_array (A B : List (Iv K)) (hA : A ≠ []) (hl : A.length ≤ B.length) :
    ∃ t, arrIn A (.arr B) = .ok t ∧ (t = true ↔ ∃ (j : ℕ) (X Y : Iv K), A[j]? = some X ∧ B[j]? = some Y ∧
      X.a ≤ Y.a ∧ Y.b ≤ X.b) := by
  set f : ℕ → Iv K → Except Err Bool := fun k X => match B[k]? with
      | some Y => .ok (X.containsIv Y)
      | none => .error .indexError with hf
  have fval : ∀ j X, A[j]? = some X → ∃ Y, B[j]? = some Y ∧ f j X = .ok (X.containsIv Y) := by
    intro j X hX
    have hj := (List.getElem?_eq_some_iff.mp hX).1
    have hB : B[j]? = some B[j] := List.getElem?_eq_getElem (by omega)
    exact ⟨B[j], hB, by simp [hf, hB]⟩
  have cont : ∀ X Y : Iv K, X.containsIv Y = true ↔ X.a ≤ Y.a ∧ Y.b ≤ X.b := by
    intro X Y
    unfold Iv.containsIv
    rw [Bool.and_eq_true, decide_eq_true_eq, decide_eq_true_eq]
  by_cases h : ∃ j : ℕ, ∃ X Y : Iv K, A[j]? = some X ∧ B[j]? = some Y ∧ X.a ≤ Y.a ∧ Y.b ≤ X.b
  · refine ⟨true, ?_, by simp only [true_iff]; exact h⟩
    show inLoop f 0 A none = .ok true
    rw [(inLoop_spec _ 0 A none (by simp)).1]
    classical
    obtain ⟨X, Y, hX, hY, hXY⟩ := Nat.find_spec h
    refine ⟨Nat.find h, X, hX, ?_, ?_⟩
    · obtain ⟨Y', hY', hv⟩ := fval _ X hX
      rw [hY] at hY'; cases hY'
      rw [Nat.zero_add, hv, (cont X Y).mpr hXY]
    · intro i hi Z hZ
      obtain ⟨W, hW, hv⟩ := fval i Z hZ
      rw [Nat.zero_add, hv]
      cases hc : Z.containsIv W with
      | false => rfl
      | true => exact absurd ⟨Z, W, hZ, hW, (cont Z W).mp hc⟩ (Nat.find_min h hi)
  · refine ⟨false, ?_, by simp only [Bool.false_eq_true, false_iff]; exact h⟩
    show inLoop f 0 A none = .ok false
    rw [(inLoop_spec _ 0 A none (by simp)).2]
    refine ⟨Or.inl hA, ?_⟩
    intro j X hX
    obtain ⟨Y, hY, hv⟩ := fval j X hX
    rw [Nat.zero_add, hv]
    cases hc : X.containsIv Y with
    | false => rfl
    | true => exact absurd ⟨j, X, Y, hX, hY, (cont X Y).mp hc⟩ h

example : arrIn ([⟨.classical, 0, 1⟩, ⟨.classical, 2, 3⟩] : List (Iv ℚ)) (.num 2) = .ok true ∧
    arrIn ([⟨.classical, 0, 1⟩, ⟨.classical, 2, 3⟩] : List (Iv ℚ)) (.arr [⟨.classical, 5, 6⟩, ⟨.classical, 2, 2⟩]) = .ok true ∧
    arrIn ([⟨.classical, 0, 1⟩, ⟨.classical, 2, 3⟩] : List (Iv ℚ)) (.vec [5]) = .error .indexError := by
  refine ⟨by decide +kernel, by decide +kernel, by decide +kernel⟩

/-- The endpoint view of an empty array raises `ValueError`, as `np.vectorize` does on arrays of size zero. -/
example : endsA ([] : List (Slot ℚ)) = .error .valueError := rfl

end IntvalPy
