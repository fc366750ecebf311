import Verif.PropsKernel
import Verif.ModelObjects
import Mathlib.Algebra.Order.Ring.Abs
import Mathlib.Data.Sign.Defs
import Mathlib.Data.List.Basic

/-!
# C10, C18 - C24, C58, C59
-/

set_option linter.unusedSectionVars false

set_option autoImplicit false

namespace IntvalPy
open Spec

variable {K : Type*} [Field K] [LinearOrder K] [IsStrictOrderedRing K]

/-! ## C21, C22: constructors -/

/-- C21: `Interval(l, r)` is an ordered classical interval with the endpoint set `{l, r}`;
with `sortQ=False` the endpoints are kept and the result is classical iff `l <= r`;
with `midRadQ=True` it is `[l - r, l + r]` (each rounded to nearest) and a negative radius fails. -/
theorem C21_constructor (R : Rnd K) (l r : K) :
    (∃ X, interval2 R l r true false = .ok X ∧ Ordinary X ∧ X.a = min l r ∧ X.b = max l r) ∧
    (∃ X, interval2 R l r false false = .ok X ∧ X.a = l ∧ X.b = r ∧ (X.cls = .classical ↔ l ≤ r)) ∧
    (∀ s, interval2 R l r s true = .error .assertionError ↔ r < 0) ∧
    (0 ≤ r → ∀ s, ∃ X, interval2 Rnd.exact l r s true = .ok X ∧ Ordinary X ∧ X.a = l - r ∧ X.b = l + r) := by
  refine ⟨?_, ?_, ?_, ?_⟩
  · unfold interval2 singleInterval
    by_cases h : r < l
    · exact ⟨⟨.classical, r, l⟩, by simp [h], ⟨rfl, h.le⟩, (min_eq_right h.le).symm, (max_eq_left h.le).symm⟩
    · have h' := not_lt.mp h
      exact ⟨⟨.classical, l, r⟩, by simp [h], ⟨rfl, h'⟩, (min_eq_left h').symm, (max_eq_right h').symm⟩
  · unfold interval2 singleInterval
    by_cases h : l ≤ r
    · exact ⟨⟨.classical, l, r⟩, by simp [h], rfl, rfl, by simp [h]⟩
    · exact ⟨⟨.kaucher, l, r⟩, by simp [h], rfl, rfl, by simp [h]⟩
  · intro s
    unfold interval2 singleInterval
    by_cases h : r < 0
    · simp [h]
    · simp only [h, decide_false, Bool.and_false, Bool.false_eq_true, if_false, if_true, iff_false]
      split_ifs <;> simp
  · intro hr s
    have h0 : ¬ r < 0 := not_lt.mpr hr
    have h1 : ¬ l + r < l - r := by linarith
    have h2 : l - r ≤ l + r := by linarith
    refine ⟨⟨.classical, l - r, l + r⟩, ?_, ⟨rfl, h2⟩, rfl, rfl⟩
    unfold interval2 singleInterval
    cases s <;> simp [h0, h1, h2]

example : interval2 Rnd.exact (5 : ℚ) 2 true false = .ok ⟨.classical, 2, 5⟩ ∧
    interval2 Rnd.exact (5 : ℚ) 2 false false = .ok ⟨.kaucher, 5, 2⟩ ∧
    interval2 Rnd.exact (5 : ℚ) 2 true true = .ok ⟨.classical, 3, 7⟩ := by
  norm_num [interval2, singleInterval]

/-- C21 for two lists of numbers: one interval for each pair, in order, built like the scalar one; lists of different
lengths and empty lists raise. -/
theorem C21_vectors (R : Rnd K) (left right : List K) (s : Bool) :
    (left.length ≠ right.length ∨ left = [] → ∀ q, intervalVec R left right s q = .error .valueError) ∧
    (left.length = right.length → left ≠ [] → ∃ X, intervalVec R left right s false = .ok X ∧
      List.Forall₂ (fun p Z => (s = true → Z = ⟨.classical, min p.1 p.2, max p.1 p.2⟩) ∧
        (s = false → Z.a = p.1 ∧ Z.b = p.2 ∧ (Z.cls = .classical ↔ p.1 ≤ p.2))) (left.zip right) X) ∧
    (left.length = right.length → left ≠ [] →
      ((∀ r ∈ right, 0 ≤ r) → ∃ X, intervalVec Rnd.exact left right s true = .ok X ∧
        List.Forall₂ (fun p Z => Z = ⟨.classical, p.1 - p.2, p.1 + p.2⟩) (left.zip right) X) ∧
      ((∃ r ∈ right, r < 0) → intervalVec R left right s true = .error .assertionError)) := by
  have mapM_all : ∀ (f : K × K → Except Err (Iv K)) (Q : K × K → Iv K → Prop) (l : List (K × K)),
      (∀ p ∈ l, ∃ Z, f p = .ok Z ∧ Q p Z) → ∃ X, l.mapM f = .ok X ∧ List.Forall₂ Q l X := by
    intro f Q l h
    induction l with
    | nil => exact ⟨[], rfl, .nil⟩
    | cons p l ih =>
      obtain ⟨Z, h1, h2⟩ := h p (by simp)
      obtain ⟨X, h3, h4⟩ := ih fun p hp => h p (by simp [hp])
      refine ⟨Z :: X, ?_, .cons h2 h4⟩
      rw [List.mapM_cons, h1, h3]
      rfl
  refine ⟨?_, ?_, ?_⟩
  · rintro h q
    unfold intervalVec
    split_ifs with h1 h2
    · rfl
    · rcases h with h | h
      exacts [absurd h1 h, absurd h h2]
    · rfl
  · intro h1 h2
    rw [intervalVec, if_pos h1, if_neg h2]
    refine mapM_all _ _ _ fun p _ => ?_
    obtain ⟨⟨X, e1, e2, e3, e4⟩, ⟨Y, e5, e6, e7, e8⟩, _⟩ := C21_constructor R p.1 p.2
    cases s
    · exact ⟨Y, e5, by simp, fun _ => ⟨e6, e7, e8⟩⟩
    · refine ⟨X, e1, fun _ => ?_, by simp⟩
      cases X with
      | mk c a b => obtain ⟨rfl, _⟩ := e2; simp only at e3 e4; rw [e3, e4]
  · intro h1 h2
    constructor
    · intro hr
      rw [intervalVec, if_pos h1, if_neg h2]
      refine mapM_all _ _ _ fun p hp => ?_
      obtain ⟨X, e1, e2, e3, e4⟩ := (C21_constructor Rnd.exact p.1 p.2).2.2.2 (hr _ (List.of_mem_zip hp).2) s
      refine ⟨X, e1, ?_⟩
      cases X with
      | mk c a b => obtain ⟨rfl, _⟩ := e2; simp only at e3 e4; rw [e3, e4]
    · rintro ⟨r, hr, hneg⟩
      rw [intervalVec, if_pos h1, if_neg h2]
      clear h2
      induction left generalizing right with
      | nil => cases right with
        | nil => simp at hr
        | cons r rs => simp at h1
      | cons l ls ih => cases right with
        | nil => simp at hr
        | cons r' rs =>
          rw [List.zip_cons_cons, List.mapM_cons]
          by_cases h0 : r' < 0
          · have := ((C21_constructor R l r').2.2.1 s).mpr h0
            rw [interval2] at this
            rw [this]
            rfl
          · rcases List.mem_cons.mp hr with rfl | hr
            · exact absurd hneg h0
            rw [ih rs (by simpa using h1) hr]
            cases hX : singleInterval R l r' s true with
            | ok X => rfl
            | error e =>
              have : e = .assertionError := by
                unfold singleInterval at hX
                simp only [if_true] at hX
                split_ifs at hX <;> first | exact (Except.error.inj hX).symm | cases hX
              subst this
              rfl

example : intervalVec (Rnd.exact (K := ℚ)) [1, 4] [3, 2] true false = .ok [⟨.classical, 1, 3⟩, ⟨.classical, 2, 4⟩] := by
  decide +kernel

/-- C21 (rounded midpoint-radius form): the constructor does not round outwards, so that
`Interval(m, r, midRadQ=True)` need not contain the points `m - r`, `m + r` it denotes. -/
theorem C21_midrad_not_outward :
    ∃ (R : Rnd ℚ) (m r : ℚ) (X : Iv ℚ), R.nr m = m ∧ R.nr r = r ∧ 0 ≤ r ∧
      interval2 R m r true true = .ok X ∧ ¬ (m + r ∈ X ∧ m - r ∈ X) := by
  -- a format with the representable numbers 0, 1, 10, 100, ... is enough: use a coarse upper part
  let R : Rnd ℚ :=
    { dn := fun x => if x ≤ 3 then x else max 3 (⌊x / 4⌋ * 4)
      up := fun x => if x ≤ 3 then x else ⌈x / 4⌉ * 4
      nr := fun x => if x ≤ 3 then x else max 3 (⌊x / 4⌋ * 4)
      dn_le := fun x => by
        split_ifs with h
        · exact le_refl _
        · refine max_le (not_le.mp h).le ?_
          have := Int.floor_le (x / 4); linarith
      le_up := fun x => by
        split_ifs with h
        · exact le_refl _
        · have := Int.le_ceil (x / 4); linarith
      dn_mono := fun x y hxy => by
        dsimp only
        split_ifs with h1 h2 h2
        · exact hxy
        · exact h1.trans (le_max_left _ _)
        · exact absurd (hxy.trans h2) h1
        · refine max_le_max (le_refl _) ?_
          have : (⌊x / 4⌋ : ℚ) ≤ ⌊y / 4⌋ := by exact_mod_cast Int.floor_le_floor (by linarith)
          linarith
      up_mono := fun x y hxy => by
        dsimp only
        split_ifs with h1 h2 h2
        · exact hxy
        · have := Int.le_ceil (y / 4); linarith
        · exact absurd (hxy.trans h2) h1
        · have : (⌈x / 4⌉ : ℚ) ≤ ⌈y / 4⌉ := by exact_mod_cast Int.ceil_le_ceil (by linarith)
          linarith
      dn_le_nr := fun x => le_refl _
      nr_le_up := fun x => by
        split_ifs with h
        · exact le_refl _
        · have h1 := Int.le_ceil (x / 4)
          have h2 := Int.floor_le (x / 4)
          exact max_le (by linarith [not_le.mp h]) (by linarith)
      dn_zero := by norm_num
      up_zero := by norm_num }
  refine ⟨R, 3, 2, ⟨.classical, 1, 4⟩, by norm_num [R], by norm_num [R], by norm_num, ?_, ?_⟩
  · have h : (⌊(5 : ℚ) / 4⌋ : ℤ) = 1 := by rw [Int.floor_eq_iff]; norm_num
    norm_num [interval2, singleInterval, R, h]
  · norm_num [Iv.mem_def]

/-- The claim C22 for one number: `Interval(c)` is the degenerate interval `[c, c]`. -/
def C22_statement (c : ℚ) : Prop :=
  ∃ X, interval1 Rnd.exact (.num c) true false = .ok (.single X) ∧ X.a = c ∧ X.b = c

/-- C22 is false for every number: `Interval(4)` raises `TypeError` because `len` is applied before the
number test. -/
theorem C22_interval_number_false :
    (∀ c : ℚ, ¬ C22_statement c) ∧
    ∀ (R : Rnd K) (c : K) (s m : Bool), ∃ e, interval1 R (.num c) s m = .error e ∧ e = .typeError := by
  refine ⟨?_, fun R c s m => ⟨_, rfl, rfl⟩⟩
  rintro c ⟨X, h, _⟩
  cases h

/-- C22, partial: an interval (or interval array) is returned unchanged, a pair of numbers gives the
scalar interval.  Missing: the documented single-number form, which raises. -/
theorem C22_interval_partial (R : Rnd K) (X : Iv K) (XS : List (Iv K)) (l r : K) (s m : Bool) :
    interval1 R (.iv X) s m = .ok (.single X) ∧
    interval1 R (.arr XS) s m = .ok (.array XS) ∧
    interval1 R (.seq [.num l, .num r]) s m = (interval2 R l r s m).map .single := by
  refine ⟨rfl, rfl, ?_⟩
  rfl

example : interval1 Rnd.exact (.seq [.num (3 : ℚ), .num 7]) true false = .ok (.single ⟨.classical, 3, 7⟩) := by
  norm_num [interval1, pyLen, singleInterval, Except.map]

/-! ## C10: the class invariant along any sequence of operations -/

/-- Everything a program can build from `Interval(...)` with the arithmetic of the library (operators,
mixed number/interval operators, numpy-dispatched operators, natural powers, `dual`, `pro`, `opp`, `copy`,
`abs`); `inv` is treated separately (C16). -/
inductive Reach (R : Rnd K) : Iv K → Prop
  | interval (l r : K) (s m : Bool) (X : Iv K) : interval2 R l r s m = .ok X → Reach R X
  | neg (X) : Reach R X → Reach R X.neg
  | abs (X) : Reach R X → Reach R X.abs
  | copy (X) : Reach R X → Reach R X.copy
  | dual (X) : Reach R X → Reach R X.dual
  | pro (X) : Reach R X → Reach R X.pro
  | opp (X) : Reach R X → Reach R X.opp
  | add (X Y) : Reach R X → Reach R Y → Reach R (X.add R Y)
  | sub (X Y) : Reach R X → Reach R Y → Reach R (X.sub R Y)
  | mul (X Y) : Reach R X → Reach R Y → Reach R (X.mul R Y)
  | div (X Y Z) : Reach R X → Reach R Y → X.div R Y = .ok Z → Reach R Z
  | pow (X n) : Reach R X → Reach R (X.powNat R n)
  | radd (c X) : Reach R X → Reach R (Iv.radd R c X)
  | rsub (c X) : Reach R X → Reach R (Iv.rsub R c X)
  | rmul (c X) : Reach R X → Reach R (Iv.rmul R c X)
  | rdiv (c X Z) : Reach R X → Iv.rdiv R c X = .ok Z → Reach R Z
  | divNum (X c Z) : Reach R X → Iv.divNum R X c = .ok Z → Reach R Z
  | ufuncDiv (c X Z) : Reach R X → Iv.ufuncDiv R c X = .ok Z → Reach R Z
  | ufuncSub (c X) : Reach R X → Reach R (Iv.ufuncSub R c X)

theorem wf_rmul (R : Rnd K) (c : K) (X : Iv K) : WF (Iv.rmul R c X) := by
  unfold Iv.rmul WF
  cases X.cls
  · intro _
    exact (min_le_left _ _).trans (((R.dn_le _).trans (R.le_up _)).trans (le_max_left _ _))
  · intro h; cases h

theorem wf_mul (R : Rnd K) (X Y : Iv K) : WF (X.mul R Y) := by
  unfold Iv.mul WF
  cases X.cls <;> cases Y.cls <;> intro h <;> first | cases h; done | skip
  exact (min_le_right _ _).trans (((R.dn_le _).trans (R.le_up _)).trans (le_max_right _ _))

theorem map_ok {α β : Type _} {m : Except Err α} {f : α → β} {z : β} (h : m.map f = .ok z) :
    ∃ y, m = .ok y ∧ f y = z := by
  cases m with
  | error e => cases h
  | ok y => exact ⟨y, rfl, Except.ok.inj h⟩

/-- C10: whatever sequence of operations produced it, an interval reported as ordinary (classical) has
`inf <= sup`; for every rounding. -/
theorem C10_class_invariant (R : Rnd K) (X : Iv K) (h : Reach R X) : WF X := by
  induction h with
  | interval l r s m X h =>
    unfold interval2 singleInterval at h
    revert h
    dsimp only
    generalize (if m = true then R.nr (l - r) else l) = p
    generalize (if m = true then R.nr (l + r) else r) = q
    split_ifs with h1 h2 h3 h4 <;> intro h <;> cases h <;> intro hc <;> first | cases hc; done | skip
    · exact h3.le
    · exact not_lt.mp h3
    · exact h4
  | neg X _ ih => exact fun hc => neg_le_neg (ih hc)
  | abs X _ ih =>
    intro _
    simp only [Iv.abs, Iv.mig, Iv.mag]
    split_ifs
    · exact (abs_nonneg _).trans (le_max_left _ _)
    · exact min_le_max
  | copy X _ ih => exact ih
  | dual X _ _ =>
    unfold Iv.dual; split_ifs with h
    · exact fun _ => h
    · intro hc; cases hc
  | pro X _ ih =>
    unfold Iv.pro; cases h : X.cls
    · exact fun _ => ih h
    · exact fun _ => min_le_max
  | opp X _ _ =>
    unfold Iv.opp; split_ifs with h
    · exact fun _ => neg_le_neg h
    · intro hc; cases hc
  | add X Y _ _ ihX ihY =>
    unfold Iv.add; cases h : X.cls
    · intro hc
      have h1 := ihX h
      have h2 := ihY hc
      exact (R.dn_le _).trans ((by linarith : X.a + Y.a ≤ X.b + Y.b).trans (R.le_up _))
    · intro hc; cases hc
  | sub X Y _ _ ihX ihY =>
    unfold Iv.sub; cases h : X.cls
    · intro hc
      have h1 := ihX h
      have h2 := ihY hc
      exact (R.dn_le _).trans ((by linarith : X.a - Y.b ≤ X.b - Y.a).trans (R.le_up _))
    · intro hc; cases hc
  | mul X Y _ _ _ _ => exact wf_mul R X Y
  | div X Y Z _ _ h _ _ =>
    unfold Iv.div at h
    split at h
    · cases h
    split at h
    · split_ifs at h
      cases h
      intro _
      exact (min_le_right _ _).trans (((R.dn_le _).trans (R.le_up _)).trans (le_max_right _ _))
    · obtain ⟨y, _, e⟩ := map_ok h
      subst e; exact wf_mul R X y
    · obtain ⟨y, _, e⟩ := map_ok h
      subst e; intro hc; cases hc
    · obtain ⟨y, _, e⟩ := map_ok h
      subst e; exact wf_mul R X y
  | pow X n _ ih =>
    have ev : n % 2 = 0 → ∀ t : K, 0 ≤ t ^ n := fun h t => (Nat.even_iff.mpr h).pow_nonneg t
    unfold Iv.powNat
    cases h : X.cls <;> dsimp only <;> split_ifs with h1 h2 h3 <;> intro hc <;> first | cases hc; done | skip
    · exact ((ev h1.1 _).trans (R.le_up _)).trans (le_max_left _ _)
    · exact (min_le_left _ _).trans (((R.dn_le _).trans (R.le_up _)).trans (le_max_left _ _))
    · exact ((ev h1.1 _).trans (R.le_up _)).trans (le_max_right _ _)
    · exact not_lt.mp h3
  | radd c X _ ih =>
    intro hc
    have h1 := ih hc
    exact (R.dn_le _).trans ((by linarith : X.a + c ≤ X.b + c).trans (R.le_up _))
  | rsub c X _ ih =>
    intro hc
    have h1 := ih hc
    exact (R.dn_le _).trans ((by linarith : c - X.b ≤ c - X.a).trans (R.le_up _))
  | rmul c X _ _ => exact wf_rmul R c X
  | rdiv c X Z _ h _ =>
    unfold Iv.rdiv at h
    split at h
    · cases h
    obtain ⟨y, _, e⟩ := map_ok h
    subst e; exact wf_rmul R c y
  | divNum X c Z _ h _ =>
    unfold Iv.divNum at h
    split at h
    · cases h
    cases h; exact wf_rmul R _ X
  | ufuncDiv c X Z _ h _ =>
    obtain ⟨y, _, e⟩ := map_ok h
    subst e; exact wf_rmul R c y
  | ufuncSub c X _ ih =>
    intro hc
    have h1 := ih hc
    exact (R.dn_le _).trans ((by simp only [Iv.neg]; linarith : X.neg.a + c ≤ X.neg.b + c).trans (R.le_up _))

example : Reach Rnd.exact ((⟨.kaucher, (3 : ℚ), 2⟩ : Iv ℚ).add Rnd.exact ⟨.classical, -4, 3⟩) :=
  .add _ _ (.interval 3 2 false false _ (by norm_num [interval2, singleInterval]))
    (.interval (-4) 3 true false _ (by norm_num [interval2, singleInterval]))

/-- C10 (boundary): with `inv` the invariant is lost: the inverse of `Interval(4, -2, sortQ=False)` is
reported as classical with its endpoints in the wrong order. -/
theorem C10_inv_breaks_invariant :
    ∃ X Y : Iv ℚ, Reach Rnd.exact X ∧ X.inv Rnd.exact = .ok Y ∧ ¬ WF Y := by
  refine ⟨⟨.kaucher, 4, -2⟩, ⟨.classical, 1/4, -1/2⟩,
    .interval 4 (-2) false false _ (by norm_num [interval2, singleInterval]), by norm_num [Iv.inv], ?_⟩
  intro h
  have := h rfl
  norm_num at this

/-! ## C18: comparisons -/

/-- C18: `==` is an equivalence with `!=` its negation; `<=` is a partial order with respect to `==`;
`<` is irreflexive and transitive and means both endpoints are strictly less; `>`/`>=` are converses;
other operands raise `TypeError`. -/
theorem C18_comparisons (X Y Z : Iv K) :
    (X.eq (.iv Y) = .ok true ↔ SameEnds X Y) ∧
    (X.ne (.iv Y) = (X.eq (.iv Y)).map not) ∧
    (X.le (.iv Y) = .ok true ↔ X.a ≤ Y.a ∧ X.b ≤ Y.b) ∧
    (X.lt (.iv Y) = .ok true ↔ X.a < Y.a ∧ X.b < Y.b) ∧
    X.le (.iv X) = .ok true ∧
    (X.le (.iv Y) = .ok true → Y.le (.iv X) = .ok true → X.eq (.iv Y) = .ok true) ∧
    (X.le (.iv Y) = .ok true → Y.le (.iv Z) = .ok true → X.le (.iv Z) = .ok true) ∧
    X.lt (.iv X) = .ok false ∧
    (X.lt (.iv Y) = .ok true → Y.lt (.iv Z) = .ok true → X.lt (.iv Z) = .ok true) ∧
    X.ge (.iv Y) = Y.le (.iv X) ∧ X.gt (.iv Y) = Y.lt (.iv X) ∧
    (X.lt (.iv Y) = .ok true → X.le (.iv Y) = .ok true) ∧
    (∀ c, X.eq (.num c) = X.eq (.iv ⟨.classical, c, c⟩) ∧ X.lt (.num c) = X.lt (.iv ⟨.classical, c, c⟩) ∧
      X.le (.num c) = X.le (.iv ⟨.classical, c, c⟩) ∧ X.ge (.num c) = X.ge (.iv ⟨.classical, c, c⟩) ∧
      X.gt (.num c) = X.gt (.iv ⟨.classical, c, c⟩) ∧ X.ne (.num c) = X.ne (.iv ⟨.classical, c, c⟩)) ∧
    X.eq .other = .error .typeError ∧ X.ne .other = .error .typeError ∧ X.lt .other = .error .typeError ∧
    X.le .other = .error .typeError ∧ X.gt .other = .error .typeError ∧ X.ge .other = .error .typeError := by
  refine ⟨?_, ?_, ?_, ?_, ?_, ?_, ?_, ?_, ?_, ?_, ?_, ?_, ?_, rfl, rfl, rfl, rfl, rfl, rfl⟩
  · simp [Iv.eq, Iv.cmpAnd, SameEnds]
  · simp only [Iv.eq, Iv.cmpAnd, Iv.ne, Except.map, Bool.not_and, decide_not]
  · simp [Iv.le, Iv.cmpAnd]
  · simp [Iv.lt, Iv.cmpAnd]
  · simp [Iv.le, Iv.cmpAnd]
  · simp only [Iv.le, Iv.eq, Iv.cmpAnd, Except.ok.injEq, Bool.and_eq_true, decide_eq_true_eq]
    exact fun h k => ⟨le_antisymm h.1 k.1, le_antisymm h.2 k.2⟩
  · simp only [Iv.le, Iv.cmpAnd, Except.ok.injEq, Bool.and_eq_true, decide_eq_true_eq]
    exact fun h k => ⟨h.1.trans k.1, h.2.trans k.2⟩
  · simp [Iv.lt, Iv.cmpAnd]
  · simp only [Iv.lt, Iv.cmpAnd, Except.ok.injEq, Bool.and_eq_true, decide_eq_true_eq]
    exact fun h k => ⟨h.1.trans k.1, h.2.trans k.2⟩
  · rfl
  · rfl
  · simp only [Iv.lt, Iv.le, Iv.cmpAnd, Except.ok.injEq, Bool.and_eq_true, decide_eq_true_eq]
    exact fun h => ⟨h.1.le, h.2.le⟩
  · intro c; exact ⟨rfl, rfl, rfl, rfl, rfl, rfl⟩

example : (⟨.classical, 1, 2⟩ : Iv ℚ).lt (.iv ⟨.classical, 3/2, 3⟩) = .ok true ∧
    (⟨.classical, 1, 2⟩ : Iv ℚ).le (.iv ⟨.classical, 0, 3⟩) = .ok false ∧
    (⟨.classical, 1, 2⟩ : Iv ℚ).ge (.iv ⟨.classical, 0, 3⟩) = .ok false := by
  norm_num [Iv.lt, Iv.le, Iv.ge, Iv.cmpAnd]

/-! ## C19: containment -/

/-- C19 (scalars): `number in X` and `Y in X` mean containment of the point / of every point. -/
theorem C19_in_scalar (X Y : Iv K) (c : K) :
    (X.containsNum c = true ↔ c ∈ X) ∧
    (Y.a ≤ Y.b → (X.containsIv Y = true ↔ Spec.Sub Y X)) := by
  refine ⟨containsNum_iff, fun hY => ?_⟩
  simp only [Iv.containsIv, Bool.and_eq_true, decide_eq_true_eq]
  constructor
  · exact fun h s hs => ⟨h.1.trans hs.1, hs.2.trans h.2⟩
  · exact fun h => ⟨(h Y.a ⟨le_refl _, hY⟩).1, (h Y.b ⟨hY, le_refl _⟩).2⟩

example : (⟨.classical, 1, 4⟩ : Iv ℚ).containsIv ⟨.classical, 2, 4⟩ = true := by
  norm_num [Iv.containsIv]

/-- The claim C19 for arrays: `y in Y` iff every component is contained. -/
def C19_array_statement (Y : List (Iv ℚ)) (y : List ℚ) : Prop :=
  arrContains Y y = .ok true ↔ List.Forall₂ (fun X c => c ∈ X) Y y

/-- C19 (arrays) is false: `[0, 10] in Interval([[0,1],[0,1]])` is `True` although the second component is
outside; an empty array raises `UnboundLocalError`. -/
theorem C19_in_array_false :
    (∃ Y : List (Iv ℚ), ∃ y : List ℚ, Y.length = y.length ∧ (∀ X ∈ Y, Ordinary X) ∧
      ¬ C19_array_statement Y y) ∧
    arrContains ([] : List (Iv ℚ)) [] = .error .unboundLocalError := by
  refine ⟨⟨[⟨.classical, 0, 1⟩, ⟨.classical, 0, 1⟩], [0, 10], rfl, ?_, ?_⟩, rfl⟩
  · intro X hX
    simp at hX
    subst hX
    exact ⟨rfl, by norm_num⟩
  · have h1 : arrContains ([⟨.classical, 0, 1⟩, ⟨.classical, 0, 1⟩] : List (Iv ℚ)) [0, 10] = .ok true := by
      norm_num [arrContains, arrContainsLoop, Iv.containsNum]
    rw [C19_array_statement, h1]
    simp only [List.forall₂_cons, iff_true]
    norm_num [Iv.mem_def]

theorem arrContainsLoop_iff (l : List (Iv K × K)) (o : Option Bool) (h : o ≠ none ∨ l ≠ []) (ho : o ≠ some true) :
    ∃ r, arrContainsLoop l o = .ok r ∧ (r = true ↔ ∃ p ∈ l, p.2 ∈ p.1) := by
  induction l generalizing o with
  | nil =>
    cases o with
    | none => simp at h
    | some c =>
      refine ⟨c, rfl, ?_⟩
      cases c <;> simp_all
  | cons p l ih =>
    obtain ⟨X, y⟩ := p
    unfold arrContainsLoop
    by_cases hc : X.containsNum y = true
    · exact ⟨true, by simp [hc], by simp [containsNum_iff.mp hc]⟩
    · obtain ⟨r, h1, h2⟩ := ih (some false) (Or.inl (by simp)) (by simp)
      refine ⟨r, by simp [hc, h1], h2.trans ?_⟩
      have : ¬ y ∈ X := fun h => hc (containsNum_iff.mpr h)
      simp [this]

/-- C19 (arrays), partial: what the operator does compute for equally long nonempty arrays is whether
*some* component is contained; for arrays of length one this is the documented meaning.
Missing: the documented "every component". -/
theorem C19_in_array_partial (Y : List (Iv K)) (y : List K) (hl : Y.length = y.length) (hne : Y ≠ []) :
    ∃ r, arrContains Y y = .ok r ∧ (r = true ↔ ∃ p ∈ Y.zip y, p.2 ∈ p.1) := by
  unfold arrContains
  rw [if_neg (by omega)]
  refine arrContainsLoop_iff _ _ (Or.inr ?_) (by simp)
  cases Y with
  | nil => exact absurd rfl hne
  | cons X Y => cases y with
    | nil => simp at hl
    | cons c y => simp

example : arrContains ([⟨.classical, 0, 1⟩, ⟨.classical, 0, 1⟩] : List (Iv ℚ)) [5, 10] = .ok false := by
  norm_num [arrContains, arrContainsLoop, Iv.containsNum]

/-! ## C20: characteristics -/

/-- C20: `mag` is the largest and `mig` the smallest absolute value of a point; `abs(X)` is the range of
`|x|`; in exact arithmetic `mid - rad`, `mid + rad` are the endpoints and `wid = 2 rad`. -/
theorem C20_characteristics (X : Iv K) (hX : Ordinary X) :
    (∀ x ∈ X, X.mig ≤ |x| ∧ |x| ≤ X.mag) ∧
    (∃ x ∈ X, |x| = X.mig) ∧ (∃ x ∈ X, |x| = X.mag) ∧
    IsRange X.abs (fun t => ∃ x ∈ X, t = |x|) ∧ Ordinary X.abs ∧
    X.mid Rnd.exact - X.rad Rnd.exact = X.a ∧ X.mid Rnd.exact + X.rad Rnd.exact = X.b ∧
    X.wid Rnd.exact = 2 * X.rad Rnd.exact ∧ 0 ≤ X.rad Rnd.exact := by
  have h1 : ∀ x ∈ X, X.mig ≤ |x| ∧ |x| ≤ X.mag := by
    intro x hx
    constructor
    · unfold Iv.mig
      split_ifs with h
      · exact abs_nonneg _
      · have h0 : ¬ (0 : K) ∈ X := fun h' => h (containsNum_iff.mpr h')
        rcases not_mem_zero_cases hX.2 h0 with h' | h'
        · refine (min_le_left _ _).trans ?_
          rw [abs_of_pos h', abs_of_pos (lt_of_lt_of_le h' hx.1)]; exact hx.1
        · refine (min_le_right _ _).trans ?_
          rw [abs_of_neg h', abs_of_neg (lt_of_le_of_lt hx.2 h')]; exact neg_le_neg hx.2
    · unfold Iv.mag
      exact abs_le_max_abs_abs hx.1 hx.2
  have h2 : ∃ x ∈ X, |x| = X.mig := by
    unfold Iv.mig
    split_ifs with h
    · exact ⟨0, containsNum_iff.mp h, abs_zero⟩
    · rcases min_choice |X.a| |X.b| with e | e
      · exact ⟨X.a, ⟨le_refl _, hX.2⟩, e.symm⟩
      · exact ⟨X.b, ⟨hX.2, le_refl _⟩, e.symm⟩
  have h3 : ∃ x ∈ X, |x| = X.mag := by
    unfold Iv.mag
    rcases max_choice |X.a| |X.b| with e | e
    · exact ⟨X.a, ⟨le_refl _, hX.2⟩, e.symm⟩
    · exact ⟨X.b, ⟨hX.2, le_refl _⟩, e.symm⟩
  refine ⟨h1, h2, h3, ⟨?_, ?_, ?_⟩, ⟨hX.1, ?_⟩, ?_, ?_, ?_, ?_⟩
  · rintro t ⟨x, hx, rfl⟩; exact h1 x hx
  · obtain ⟨x, hx, e⟩ := h2; exact ⟨x, hx, e.symm⟩
  · obtain ⟨x, hx, e⟩ := h3; exact ⟨x, hx, e.symm⟩
  · obtain ⟨x, hx, e⟩ := h2; show X.mig ≤ X.mag; rw [← e]; exact (h1 x hx).2
  · simp only [Iv.mid, Iv.rad, Iv.wid, Rnd.exact_nr, id]; ring
  · simp only [Iv.mid, Iv.rad, Iv.wid, Rnd.exact_nr, id]; ring
  · simp only [Iv.rad, Iv.wid, Rnd.exact_nr, id]; ring
  · simp only [Iv.rad, Iv.wid, Rnd.exact_nr, id]; linarith [hX.2]

example : (⟨.classical, -3, 2⟩ : Iv ℚ).mig = 0 ∧ (⟨.classical, -3, 2⟩ : Iv ℚ).mag = 3 ∧
    (⟨.classical, -3, -2⟩ : Iv ℚ).abs = ⟨.classical, 2, 3⟩ ∧
    (⟨.classical, -3, 2⟩ : Iv ℚ).mid Rnd.exact = -1/2 := by
  norm_num [Iv.mig, Iv.mag, Iv.abs, Iv.containsNum, Iv.mid, abs_of_nonneg, abs_of_nonpos]

/-- C20 (the module-level helpers): `wid(number)` returns the number itself instead of `0`, unlike
`rad(number)`, so that `wid = 2 rad` fails for plain numbers. -/
theorem C20_wid_number_false :
    ∃ (c : ℚ) (w r : ℚ), utilsWid Rnd.exact (.num c) = .ok w ∧ utilsRad Rnd.exact (.num c) = .ok r ∧
      w ≠ 2 * r := ⟨3, 3, 0, rfl, rfl, by norm_num⟩

/-- `rad` of anything that is not an interval is `0.0`, `wid` of it raises. -/
example : utilsRad (Rnd.exact : Rnd ℚ) .other = .ok 0 ∧ utilsRad (Rnd.exact : Rnd ℚ) (.iv ⟨.classical, 1, 4⟩) = .ok (3/2) := by
  norm_num [utilsRad, Iv.rad, Iv.wid, Rnd.exact]

/-! ## C23: intersection -/

/-- C23 (scalars, any rounding): no common point is lost; if there is a common point the result is exactly
the common part and ordinary; the NaN interval is returned only for disjoint operands, and in exact
arithmetic exactly when the gap exceeds `1e-15`. -/
theorem C23_intersection_partial (R : Rnd K) (X Y : Iv K) :
    (∀ s, s ∈ X → s ∈ Y → ∃ Z, intersect R X Y = some Z ∧ Ordinary Z ∧ s ∈ Z) ∧
    (∀ Z, intersect R X Y = some Z → (∃ s, s ∈ X ∧ s ∈ Y) → ∀ s, s ∈ Z ↔ s ∈ X ∧ s ∈ Y) ∧
    (intersect R X Y = none → ∀ s, ¬ (s ∈ X ∧ s ∈ Y)) ∧
    (intersect Rnd.exact X Y = none ↔ (interTol : K) < max X.a Y.a - min X.b Y.b) := by
  have tol : (0 : K) ≤ interTol := by unfold interTol; positivity
  have es : (if X.a < Y.a then Y.a else X.a) = max X.a Y.a := by
    split_ifs with h
    · exact (max_eq_right h.le).symm
    · exact (max_eq_left (not_lt.mp h)).symm
  have ei : (if X.b < Y.b then X.b else Y.b) = min X.b Y.b := by
    split_ifs with h
    · exact (min_eq_left h.le).symm
    · exact (min_eq_right (not_lt.mp h)).symm
  have form : ∀ R : Rnd K, intersect R X Y = if R.nr (max X.a Y.a - min X.b Y.b) ≤ interTol then
      if min X.b Y.b < max X.a Y.a then some ⟨.classical, min X.b Y.b, max X.a Y.a⟩
      else some ⟨.classical, max X.a Y.a, min X.b Y.b⟩ else none := by
    intro R; unfold intersect; dsimp only; rw [es, ei]
  have common : (∃ s, s ∈ X ∧ s ∈ Y) → intersect R X Y = some ⟨.classical, max X.a Y.a, min X.b Y.b⟩ ∧
      max X.a Y.a ≤ min X.b Y.b := by
    rintro ⟨s, hs, hs'⟩
    have h : max X.a Y.a ≤ min X.b Y.b :=
      (max_le hs.1 hs'.1).trans (le_min hs.2 hs'.2)
    have hn : R.nr (max X.a Y.a - min X.b Y.b) ≤ interTol := by
      refine (R.nr_le_up _).trans (le_trans (R.up_mono (sub_nonpos.mpr h)) ?_)
      rw [R.up_zero]; exact tol
    rw [form, if_pos hn, if_neg (not_lt.mpr h)]
    exact ⟨rfl, h⟩
  refine ⟨?_, ?_, ?_, ?_⟩
  · intro s hs hs'
    obtain ⟨h1, h2⟩ := common ⟨s, hs, hs'⟩
    exact ⟨_, h1, ⟨rfl, h2⟩, max_le hs.1 hs'.1, le_min hs.2 hs'.2⟩
  · intro Z hZ hc s
    obtain ⟨h1, _⟩ := common hc
    rw [h1] at hZ
    cases hZ
    simp only [Iv.mem_def, max_le_iff, le_min_iff]
    tauto
  · intro hn s hs
    obtain ⟨h1, _⟩ := common ⟨s, hs⟩
    rw [h1] at hn; cases hn
  · rw [form]
    simp only [Rnd.exact_nr, id]
    split_ifs with h1 h2
    · simp [h1]
    · simp [h1]
    · simp only [true_iff]; exact not_lt.mp (fun h => h1 h.le) |>.lt_of_ne (fun h => h1 h.ge)

example : intersect Rnd.exact (⟨.classical, 1, 4⟩ : Iv ℚ) ⟨.classical, 3, 7⟩ = some ⟨.classical, 3, 4⟩ ∧
    intersect Rnd.exact (⟨.classical, 1, 2⟩ : Iv ℚ) ⟨.classical, 3, 7⟩ = none := by
  norm_num [intersect, interTol]

/-- C23 (arrays): arrays of equal length are intersected component by component, different lengths are
rejected, and a scalar interval is intersected with every component. -/
theorem C23_intersection_arrays (R : Rnd K) (xs ys : List (Iv K)) (x : Iv K) :
    (xs.length = ys.length → ∃ zs, intersection R (.arr xs) (.arr ys) = .ok (.array zs) ∧
      zs.length = xs.length ∧ ∀ i (h : i < xs.length) (h' : i < ys.length) (h'' : i < zs.length),
        zs[i] = intersect R xs[i] ys[i]) ∧
    (xs.length ≠ ys.length → intersection R (.arr xs) (.arr ys) = .error .assertionError) ∧
    intersection R (.iv x) (.arr ys) = .ok (.array (ys.map fun y => intersect R x y)) ∧
    intersection R (.arr xs) (.iv x) = .ok (.array (xs.map fun y => intersect R y x)) := by
  refine ⟨fun h => ⟨List.zipWith (intersect R) xs ys, by simp [intersection, h], by simp [h], ?_⟩,
    fun h => by simp [intersection, h], rfl, rfl⟩
  intro i h1 h2 h3
  simp

/-- The documented conversion of non-interval operands by `asinterval`, claim for numbers. -/
def C23_convert_statement (c : ℚ) (x : Iv ℚ) : Prop :=
  intersection Rnd.exact (.num c) (.iv x) = intersection Rnd.exact (.iv ⟨.classical, c, c⟩) (.iv x)

/-- C23 (conversion) is false: `intersection(1, Interval(0, 2))` raises `AttributeError`. -/
theorem C23_convert_false : ∃ c x, Ordinary x ∧ c ∈ x ∧ ¬ C23_convert_statement c x ∧
    intersection Rnd.exact (.num c) (.iv x) = .error .attributeError := by
  refine ⟨1, ⟨.classical, 0, 2⟩, ⟨rfl, by norm_num⟩, by norm_num [Iv.mem_def], ?_, rfl⟩
  intro h; cases h

/-! ## C24: dist is a metric -/

/-- C24 (scalars). -/
theorem C24_dist_metric (X Y Z : Iv K) :
    0 ≤ dist X Y ∧ dist X Y = dist Y X ∧ (dist X Y = 0 ↔ SameEnds X Y) ∧
    dist X Z ≤ dist X Y + dist Y Z := by
  refine ⟨le_max_of_le_left (abs_nonneg _), ?_, ?_, ?_⟩
  · simp only [dist, cheb, abs_sub_comm]
  · unfold dist cheb SameEnds
    constructor
    · intro h
      have h1 : |X.a - Y.a| ≤ 0 := h ▸ le_max_left _ _
      have h2 : |X.b - Y.b| ≤ 0 := h ▸ le_max_right _ _
      exact ⟨sub_eq_zero.mp (abs_nonpos_iff.mp h1), sub_eq_zero.mp (abs_nonpos_iff.mp h2)⟩
    · rintro ⟨h1, h2⟩; simp [h1, h2]
  · unfold dist cheb
    refine max_le ?_ ?_
    · exact (abs_sub_le X.a Y.a Z.a).trans (add_le_add (le_max_left _ _) (le_max_left _ _))
    · exact (abs_sub_le X.b Y.b Z.b).trans (add_le_add (le_max_right _ _) (le_max_right _ _))

/-- C24: for proper intervals `dist` is the Hausdorff distance: it is at most `r` exactly when every point of each
interval has a point of the other within `r`. -/
theorem C24_dist_hausdorff (X Y : Iv K) (hX : X.a ≤ X.b) (hY : Y.a ≤ Y.b) (r : K) :
    dist X Y ≤ r ↔ (∀ x, X.a ≤ x → x ≤ X.b → ∃ y, Y.a ≤ y ∧ y ≤ Y.b ∧ |x - y| ≤ r) ∧
      (∀ y, Y.a ≤ y → y ≤ Y.b → ∃ x, X.a ≤ x ∧ x ≤ X.b ∧ |x - y| ≤ r) := by
  have clamp : ∀ (A B : Iv K), B.a ≤ B.b → |A.a - B.a| ≤ r → |A.b - B.b| ≤ r →
      ∀ x, A.a ≤ x → x ≤ A.b → ∃ y, B.a ≤ y ∧ y ≤ B.b ∧ |x - y| ≤ r := by
    intro A B hB h1 h2 x hx1 hx2
    have hr : 0 ≤ r := (abs_nonneg _).trans h1
    rw [abs_le] at h1 h2
    rcases le_total x B.a with h | h
    · exact ⟨B.a, le_refl _, hB, by rw [abs_le]; constructor <;> linarith⟩
    · rcases le_total x B.b with h' | h'
      · exact ⟨x, h, h', by rw [sub_self, abs_zero]; exact hr⟩
      · exact ⟨B.b, hB, le_refl _, by rw [abs_le]; constructor <;> linarith⟩
  unfold dist cheb
  rw [max_le_iff]
  constructor
  · rintro ⟨h1, h2⟩
    refine ⟨clamp X Y hY h1 h2, fun y h3 h4 => ?_⟩
    obtain ⟨x, a1, a2, a3⟩ := clamp Y X hX (by rwa [abs_sub_comm]) (by rwa [abs_sub_comm]) y h3 h4
    exact ⟨x, a1, a2, by rwa [abs_sub_comm]⟩
  · rintro ⟨h1, h2⟩
    obtain ⟨y1, a1, a2, a3⟩ := h1 X.a (le_refl _) hX
    obtain ⟨y2, b1, b2, b3⟩ := h1 X.b hX (le_refl _)
    obtain ⟨x1, c1, c2, c3⟩ := h2 Y.a (le_refl _) hY
    obtain ⟨x2, d1, d2, d3⟩ := h2 Y.b hY (le_refl _)
    rw [abs_le] at a3 b3 c3 d3
    constructor <;> rw [abs_le] <;> constructor <;> linarith

example : dist (⟨.classical, 0, 1⟩ : Iv ℚ) ⟨.classical, 1, 4⟩ = 3 := by norm_num [dist, cheb]

/-- C70 Ratschek's functional: a `ZeroDivisionError` exactly for the zero interval; otherwise the quotient of the
endpoint of smaller magnitude by the other one, rounded to nearest; in exact arithmetic it lies in `[-1, 1]`, is `1`
exactly for nonzero degenerate intervals and `-1` exactly for symmetric ones. -/
theorem C70_khi (R : Rnd K) (X : Iv K) :
    (Iv.khi R X = .error .zeroDivisionError ↔ X.a = 0 ∧ X.b = 0) ∧
    (¬ (X.a = 0 ∧ X.b = 0) → ∃ c : K, Iv.khi R X = .ok (R.nr c) ∧ |c| ≤ 1 ∧
      ((|X.a| ≤ |X.b| ∧ c * X.b = X.a) ∨ (|X.b| ≤ |X.a| ∧ c * X.a = X.b)) ∧
      (c = 1 ↔ X.a = X.b) ∧ (c = -1 ↔ X.a = -X.b)) := by
  unfold Iv.khi
  constructor
  · split_ifs with h1 h2 h3
    · simp only [true_iff]
      rw [h2, abs_zero, abs_nonpos_iff] at h1
      exact ⟨h1, h2⟩
    · simp only [reduceCtorEq, false_iff]
      exact fun h => h2 h.2
    · exact absurd (by rw [h3, abs_zero]; exact abs_nonneg _) h1
    · simp only [reduceCtorEq, false_iff]
      exact fun h => h3 h.1
  · intro hne
    split_ifs with h1 h2 h3
    · rw [h2, abs_zero, abs_nonpos_iff] at h1
      exact absurd ⟨h1, h2⟩ hne
    · refine ⟨X.a / X.b, rfl, ?_, Or.inl ⟨h1, div_mul_cancel₀ _ h2⟩, ?_, ?_⟩
      · rw [abs_div]; exact div_le_one_of_le₀ h1 (abs_nonneg _)
      · rw [div_eq_one_iff_eq h2]
      · rw [div_eq_iff h2, neg_one_mul]
    · exact absurd (by rw [h3, abs_zero]; exact abs_nonneg _) h1
    · refine ⟨X.b / X.a, rfl, ?_, Or.inr ⟨(not_le.mp h1).le, div_mul_cancel₀ _ h3⟩, ?_, ?_⟩
      · rw [abs_div]; exact div_le_one_of_le₀ (not_le.mp h1).le (abs_nonneg _)
      · rw [div_eq_one_iff_eq h3]; exact eq_comm
      · rw [div_eq_iff h3, neg_one_mul]; exact eq_neg_iff_add_eq_zero.trans (by rw [add_comm, ← eq_neg_iff_add_eq_zero])

example : Iv.khi (Rnd.exact : Rnd ℚ) ⟨.classical, -4, 3⟩ = .ok (-3 / 4) := by
  norm_num [Iv.khi, Rnd.exact, abs_of_nonneg]

theorem npAmax_spec {l : List K} {m : K} (h : npAmax l = .ok m) : m ∈ l ∧ ∀ x ∈ l, x ≤ m := by
  cases l with
  | nil => cases h
  | cons x xs =>
    cases h
    have gen : ∀ (xs : List K) (x : K), xs.foldl max x ∈ x :: xs ∧ ∀ y ∈ x :: xs, y ≤ xs.foldl max x := by
      intro xs
      induction xs with
      | nil => intro x; simp
      | cons y ys ih =>
        intro x
        obtain ⟨h1, h2⟩ := ih (max x y)
        simp only [List.foldl_cons]
        constructor
        · rcases List.mem_cons.mp h1 with h | h
          · rw [h]; rcases max_choice x y with e | e <;> simp [e]
          · simp [h]
        · intro z hz
          have hm := h2 (max x y) (by simp)
          rcases List.mem_cons.mp hz with rfl | hz
          · exact (le_max_left _ _).trans hm
          rcases List.mem_cons.mp hz with rfl | hz
          · exact (le_max_right _ _).trans hm
          · exact h2 z (by simp [hz])
    exact gen xs x

theorem npAmax_ok {l : List K} (h : l ≠ []) : ∃ m, npAmax l = .ok m := by
  cases l with
  | nil => exact absurd rfl h
  | cons x xs => exact ⟨_, rfl⟩

/-- C24 (vectors): for equally long nonempty vectors `dist` succeeds, is the largest componentwise
distance, symmetric, zero iff all components are equal, and satisfies the triangle inequality. -/
theorem C24_distVec_metric (n : ℕ) (x y z : Fin (n + 1) → Iv K) :
    ∃ dxy dyz dxz dyx, distVec (List.ofFn x) (List.ofFn y) = .ok dxy ∧
      distVec (List.ofFn y) (List.ofFn z) = .ok dyz ∧ distVec (List.ofFn x) (List.ofFn z) = .ok dxz ∧
      distVec (List.ofFn y) (List.ofFn x) = .ok dyx ∧
      (∀ i, dist (x i) (y i) ≤ dxy) ∧ (∃ i, dist (x i) (y i) = dxy) ∧
      0 ≤ dxy ∧ dxy = dyx ∧ (dxy = 0 ↔ ∀ i, SameEnds (x i) (y i)) ∧ dxz ≤ dxy + dyz := by
  have main : ∀ x y : Fin (n + 1) → Iv K, ∃ d, distVec (List.ofFn x) (List.ofFn y) = .ok d ∧
      (∀ i, dist (x i) (y i) ≤ d) ∧ (∃ i, dist (x i) (y i) = d) := by
    intro x y
    have e : List.zipWith cheb (List.ofFn x) (List.ofFn y) = List.ofFn fun i => dist (x i) (y i) := by
      apply List.ext_getElem
      · simp
      · intro i h1 h2; simp only [List.getElem_zipWith, List.getElem_ofFn, dist]
    obtain ⟨d, hd⟩ := npAmax_ok (l := List.ofFn fun i => dist (x i) (y i)) (by simp)
    obtain ⟨h1, h2⟩ := npAmax_spec hd
    refine ⟨d, by rw [distVec, e, hd], ?_, ?_⟩
    · intro i; exact h2 _ ((List.mem_ofFn' _ _).mpr ⟨i, rfl⟩)
    · exact (List.mem_ofFn' _ _).mp h1
  obtain ⟨dxy, e1, u1, i1, v1⟩ := main x y
  obtain ⟨dyz, e2, u2, i2, v2⟩ := main y z
  obtain ⟨dxz, e3, u3, i3, v3⟩ := main x z
  obtain ⟨dyx, e4, u4, i4, v4⟩ := main y x
  have nn : 0 ≤ dxy := (C24_dist_metric (x i1) (y i1) (z i1)).1.trans (u1 i1)
  refine ⟨dxy, dyz, dxz, dyx, e1, e2, e3, e4, u1, ⟨i1, v1⟩, nn, ?_, ?_, ?_⟩
  · apply le_antisymm
    · rw [← v1, (C24_dist_metric (x i1) (y i1) (z i1)).2.1]; exact u4 i1
    · rw [← v4, (C24_dist_metric (y i4) (x i4) (z i4)).2.1]; exact u1 i4
  · constructor
    · intro h i
      refine (C24_dist_metric (x i) (y i) (z i)).2.2.1.mp (le_antisymm (h ▸ u1 i) ?_)
      exact (C24_dist_metric (x i) (y i) (z i)).1
    · intro h
      rw [← v1]; exact (C24_dist_metric (x i1) (y i1) (z i1)).2.2.1.mpr (h i1)
  · rw [← v3]
    exact (C24_dist_metric (x i3) (y i3) (z i3)).2.2.2.trans (add_le_add (u1 i3) (u2 i3))

example : distVec [(⟨.classical, 0, 1⟩ : Iv ℚ), ⟨.classical, 2, 3⟩] [⟨.classical, 0, 5⟩, ⟨.classical, 2, 3⟩]
    = .ok 4 := by
  norm_num [distVec, npAmax, cheb, abs_of_nonpos]

/-! ## C58: sign -/

/-- C58: `sign(X)` contains the sign of every point of an ordinary interval, both endpoints are signs of
points of `X` (so it is the exact hull), and it is `[1,1]`/`[-1,-1]` exactly on one side of zero. -/
theorem C58_sign (X : Iv K) (hX : Ordinary X) :
    IsRange (signIv X) (fun t => ∃ x ∈ X, t = ((SignType.sign x : SignType) : K)) ∧
    ((signIv X).a = 1 ∧ (signIv X).b = 1 ↔ 0 < X.a) ∧
    ((signIv X).a = -1 ∧ (signIv X).b = -1 ↔ X.b < 0) := by
  have hab := hX.2
  have ma : X.a ∈ X := ⟨le_refl _, hab⟩
  have mb : X.b ∈ X := ⟨hab, le_refl _⟩
  have sneg : ∀ x : K, x < 0 → ((SignType.sign x : SignType) : K) = -1 := fun x h => by simp [sign_neg h]
  have spos : ∀ x : K, 0 < x → ((SignType.sign x : SignType) : K) = 1 := fun x h => by simp [sign_pos h]
  have szero : ((SignType.sign (0 : K) : SignType) : K) = 0 := by simp
  have sle : ∀ x : K, -1 ≤ ((SignType.sign x : SignType) : K) ∧ ((SignType.sign x : SignType) : K) ≤ 1 := by
    intro x
    rcases lt_trichotomy x 0 with h | h | h
    · rw [sneg x h]; norm_num
    · rw [h, szero]; norm_num
    · rw [spos x h]; norm_num
  unfold signIv
  by_cases h1 : X.b < 0
  · rw [if_pos h1]
    have ha : X.a < 0 := lt_of_le_of_lt hab h1
    refine ⟨⟨?_, ⟨X.a, ma, (sneg _ ha).symm⟩, ⟨X.b, mb, (sneg _ h1).symm⟩⟩, ?_, ?_⟩
    · rintro t ⟨x, hx, rfl⟩
      rw [sneg x (lt_of_le_of_lt hx.2 h1)]; exact ⟨le_refl _, le_refl _⟩
    · constructor
      · intro h; norm_num at h
      · intro h; exact absurd (h.trans ha) (lt_irrefl _)
    · simp [h1]
  rw [if_neg h1]
  have hb := not_lt.mp h1
  by_cases h2 : X.a < 0
  · by_cases h3 : X.b = 0
    · rw [if_pos ⟨h2, h3⟩]
      refine ⟨⟨?_, ⟨X.a, ma, (sneg _ h2).symm⟩, ⟨X.b, mb, by rw [h3, szero]⟩⟩, ?_, ?_⟩
      · rintro t ⟨x, hx, rfl⟩
        refine ⟨(sle x).1, ?_⟩
        rcases (hx.2.trans h3.le).lt_or_eq with h | h
        · rw [sneg x h]; norm_num
        · rw [h, szero]
      · constructor
        · intro h; norm_num at h
        · intro h; exact absurd (h.trans h2) (lt_irrefl _)
      · simp [h3]
    · have hb' : 0 < X.b := lt_of_le_of_ne hb (Ne.symm h3)
      rw [if_neg (by simp [h3]), if_pos ⟨h2, hb'⟩]
      refine ⟨⟨?_, ⟨X.a, ma, (sneg _ h2).symm⟩, ⟨X.b, mb, (spos _ hb').symm⟩⟩, ?_, ?_⟩
      · rintro t ⟨x, hx, rfl⟩; exact sle x
      · constructor
        · intro h; norm_num at h
        · intro h; exact absurd (h.trans h2) (lt_irrefl _)
      · constructor
        · intro h; norm_num at h
        · intro h; exact absurd h h1
  rw [if_neg (by simp [h2]), if_neg (by simp [h2])]
  have ha := not_lt.mp h2
  by_cases h3 : X.a = 0
  · by_cases h4 : X.b = 0
    · rw [if_pos ⟨h3, h4⟩]
      refine ⟨⟨?_, ⟨X.a, ma, by rw [h3, szero]⟩, ⟨X.b, mb, by rw [h4, szero]⟩⟩, ?_, ?_⟩
      · rintro t ⟨x, hx, rfl⟩
        have : x = 0 := le_antisymm (hx.2.trans h4.le) (h3.symm.le.trans hx.1)
        rw [this, szero]; exact ⟨le_refl _, le_refl _⟩
      · simp [h3]
      · simp [h4]
    · have hb' : 0 < X.b := lt_of_le_of_ne hb (Ne.symm h4)
      rw [if_neg (by simp [h4]), if_pos ⟨h3, hb'⟩]
      refine ⟨⟨?_, ⟨X.a, ma, by rw [h3, szero]⟩, ⟨X.b, mb, (spos _ hb').symm⟩⟩, ?_, ?_⟩
      · rintro t ⟨x, hx, rfl⟩
        refine ⟨?_, (sle x).2⟩
        rcases (h3.symm.le.trans hx.1).lt_or_eq with h | h
        · rw [spos x h]; norm_num
        · rw [← h, szero]
      · simp [h3]
      · constructor
        · intro h; norm_num at h
        · intro h; exact absurd h h1
  · have ha' : 0 < X.a := lt_of_le_of_ne ha (Ne.symm h3)
    rw [if_neg (by simp [h3]), if_neg (by simp [h3])]
    refine ⟨⟨?_, ⟨X.a, ma, (spos _ ha').symm⟩, ⟨X.b, mb, (spos _ (ha'.trans_le hab)).symm⟩⟩, ?_, ?_⟩
    · rintro t ⟨x, hx, rfl⟩
      rw [spos x (ha'.trans_le hx.1)]; exact ⟨le_refl _, le_refl _⟩
    · simp [ha']
    · constructor
      · intro h; norm_num at h
      · intro h; exact absurd h h1

example : signIv (⟨.classical, -3, 2⟩ : Iv ℚ) = ⟨.classical, -1, 1⟩ := by norm_num [signIv]

/-! ## C59: inclusion helpers -/

theorem zipWith_all_iff {α β : Type*} (p : α → β → Bool) (n : ℕ) (f : Fin n → α) (g : Fin n → β) :
    (List.zipWith p (List.ofFn f) (List.ofFn g)).all id = true ↔ ∀ i, p (f i) (g i) = true := by
  have e : List.zipWith p (List.ofFn f) (List.ofFn g) = List.ofFn fun i => p (f i) (g i) := by
    apply List.ext_getElem
    · simp
    · intro i h1 h2; simp
  rw [e, List.all_eq_true]
  constructor
  · intro h i; exact h _ ((List.mem_ofFn' _ _).mpr ⟨i, rfl⟩)
  · rintro h x hx
    obtain ⟨i, rfl⟩ := (List.mem_ofFn' _ _).mp hx
    exact h i

/-- C59: for arrays of ordinary intervals of the same length, `subset` is componentwise set inclusion,
`superset` its converse, `contain` is the componentwise version, the proper variants are strict at both
ends and imply inclusion without equality. -/
theorem C59_subset_partial (n : ℕ) (A B : Fin n → Iv K) (hA : ∀ i, (A i).a ≤ (A i).b) :
    (subset (List.ofFn A) (List.ofFn B) = true ↔ ∀ i, Spec.Sub (A i) (B i)) ∧
    (superset (List.ofFn B) (List.ofFn A) = true ↔ ∀ i, Spec.Sub (A i) (B i)) ∧
    (properSubset (List.ofFn A) (List.ofFn B) = true ↔ ∀ i, (B i).a < (A i).a ∧ (A i).b < (B i).b) ∧
    (properSuperset (List.ofFn B) (List.ofFn A) = properSubset (List.ofFn A) (List.ofFn B)) ∧
    (0 < n → properSubset (List.ofFn A) (List.ofFn B) = true →
      subset (List.ofFn A) (List.ofFn B) = true ∧ ¬ ∀ i, SameEnds (A i) (B i)) ∧
    (∀ i : Fin n, (contain (List.ofFn A) (List.ofFn B))[i]? = some true ↔ Spec.Sub (A i) (B i)) := by
  have sub_iff : ∀ i, (decide ((B i).a ≤ (A i).a) && decide ((A i).b ≤ (B i).b)) = true ↔ Spec.Sub (A i) (B i) := by
    intro i
    simp only [Bool.and_eq_true, decide_eq_true_eq]
    constructor
    · exact fun h s hs => ⟨h.1.trans hs.1, hs.2.trans h.2⟩
    · exact fun h => ⟨(h _ ⟨le_refl _, hA i⟩).1, (h _ ⟨hA i, le_refl _⟩).2⟩
  have h1 : subset (List.ofFn A) (List.ofFn B) = true ↔ ∀ i, Spec.Sub (A i) (B i) := by
    unfold subset
    rw [zipWith_all_iff]
    exact forall_congr' sub_iff
  have h3 : properSubset (List.ofFn A) (List.ofFn B) = true ↔ ∀ i, (B i).a < (A i).a ∧ (A i).b < (B i).b := by
    unfold properSubset
    rw [zipWith_all_iff]
    simp
  refine ⟨h1, h1, h3, rfl, ?_, ?_⟩
  · intro hn hp
    rw [h3] at hp
    refine ⟨h1.mpr fun i s hs => ⟨(hp i).1.le.trans hs.1, hs.2.trans (hp i).2.le⟩, fun h => ?_⟩
    have := (hp ⟨0, hn⟩).1
    rw [(h ⟨0, hn⟩).1] at this
    exact lt_irrefl _ this
  · intro i
    unfold contain
    have : (List.zipWith (fun x y => decide (y.a ≤ x.a) && decide (x.b ≤ y.b)) (List.ofFn A) (List.ofFn B))[(i : ℕ)]?
        = some (decide ((B i).a ≤ (A i).a) && decide ((A i).b ≤ (B i).b)) := by
      rw [List.getElem?_eq_getElem (by simp)]
      simp
    rw [Fin.getElem?_fin, this, Option.some.injEq]
    exact sub_iff i

example : subset [(⟨.classical, 1, 2⟩ : Iv ℚ), ⟨.classical, 0, 1⟩] [⟨.classical, 0, 2⟩, ⟨.classical, 0, 1⟩] = true := by
  norm_num [subset]

/-- C59 (supercontain) is false: `supercontain` is a single truth value, so its componentwise answers are
lost: here component 0 of `B` is contained in `A` and component 1 is not, and the answer is just `False`
where `contain(B, A)` is `[True, False]`. -/
theorem C59_supercontain_false :
    ∃ A B : List (Iv ℚ), contain B A = [true, false] ∧ supercontain A B = false := by
  refine ⟨[⟨.classical, 0, 2⟩, ⟨.classical, 0, 1⟩], [⟨.classical, 1, 2⟩, ⟨.classical, 0, 3⟩], ?_, ?_⟩
  · norm_num [contain]
  · norm_num [supercontain, subset]

end IntvalPy
