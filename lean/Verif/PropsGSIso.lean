import Verif.PropsGauss
import Verif.PropsExpr

/-!
# Narrower data give narrower results of `@` and `Gauss_Seidel` (C152)

/repo/intvalpy/kernel/real_intervals.py:281-341, /repo/intvalpy/linear/Gauss_Seidel.py.
-/

set_option autoImplicit false
set_option linter.unusedSectionVars false

namespace IntvalPy
open Spec

variable {K : Type*} [Field K] [LinearOrder K] [IsStrictOrderedRing K]

/-- Two ordinary intervals, the first in the second. -/
def Nested (X Y : Iv K) : Prop := Ordinary X ∧ Ordinary Y ∧ Sub X Y

theorem nested_ends {X Y : Iv K} (h : Nested X Y) : Inside X Y :=
  ⟨(h.2.2 _ (memL h.1)).1, (h.2.2 _ (memR h.1)).2⟩

theorem nested_of {X Y : Iv K} (hX : Ordinary X) (hY : Ordinary Y) (h : Inside X Y) : Nested X Y :=
  ⟨hX, hY, fun _ hs => h.mem hs⟩

theorem nested_add (R : Rnd K) {X X' Y Y' : Iv K} (h : Nested X X') (k : Nested Y Y') :
    Nested (X.add R Y) (X'.add R Y') := by
  refine nested_of (C01_add_sub_ordinary R X Y h.1 k.1).1 (C01_add_sub_ordinary R X' Y' h.2.1 k.2.1).1 ?_
  have hi := nested_ends h
  have ki := nested_ends k
  simp only [Inside, Iv.add, h.1.1, h.2.1.1]
  exact ⟨R.dn_mono (add_le_add hi.1 ki.1), R.up_mono (add_le_add hi.2 ki.2)⟩

theorem nested_sub (R : Rnd K) {X X' Y Y' : Iv K} (h : Nested X X') (k : Nested Y Y') :
    Nested (X.sub R Y) (X'.sub R Y') := by
  refine nested_of (C01_add_sub_ordinary R X Y h.1 k.1).2 (C01_add_sub_ordinary R X' Y' h.2.1 k.2.1).2 ?_
  have hi := nested_ends h
  have ki := nested_ends k
  simp only [Inside, Iv.sub, h.1.1, h.2.1.1]
  exact ⟨R.dn_mono (sub_le_sub hi.1 ki.2), R.up_mono (sub_le_sub hi.2 ki.1)⟩

theorem nested_mul (R : Rnd K) {X X' Y Y' : Iv K} (h : Nested X X') (k : Nested Y Y') :
    Nested (X.mul R Y) (X'.mul R Y') :=
  nested_of (C02_mul_ordinary R X Y h.1 k.1) (C02_mul_ordinary R X' Y' h.2.1 k.2.1)
    (mul_inside R h.1 h.2.1 k.1 k.2.1 (nested_ends h) (nested_ends k))

theorem nested_radd (R : Rnd K) (c : K) {X X' : Iv K} (h : Nested X X') : Nested (X.radd R c) (X'.radd R c) := by
  have hi := nested_ends h
  have o : ∀ Y : Iv K, Ordinary Y → Ordinary (Y.radd R c) := fun Y hY =>
    ⟨hY.1, (R.dn_le _).trans ((add_le_add_left hY.2 _).trans (R.le_up _))⟩
  exact nested_of (o _ h.1) (o _ h.2.1)
    ⟨R.dn_mono (add_le_add_left hi.1 _), R.up_mono (add_le_add_left hi.2 _)⟩

theorem nested_rmul (R : Rnd K) (c : K) {X X' : Iv K} (h : Nested X X') : Nested (Iv.rmul R c X) (Iv.rmul R c X') := by
  have o : ∀ Y : Iv K, Ordinary Y → Ordinary (Iv.rmul R c Y) := fun Y hY => by
    refine ⟨by simp [Iv.rmul, hY.1], ?_⟩
    simp only [Iv.rmul, hY.1]
    exact (min_le_left _ _).trans ((R.dn_le _).trans ((R.le_up _).trans (le_max_left _ _)))
  exact nested_of (o _ h.1) (o _ h.2.1) (rmul_inside R c h.1 h.2.1 (nested_ends h))

theorem nested_foldl (R : Rnd K) (l l' : List (Iv K)) (hl : List.Forall₂ Nested l l') :
    ∀ X X' : Iv K, Nested X X' → Nested (l.foldl (Iv.add R) X) (l'.foldl (Iv.add R) X') := by
  induction hl with
  | nil => intro X X' h; exact h
  | cons h _ ih => intro X X' h'; exact ih _ _ (nested_add R h' h)

theorem nested_subSum (R : Rnd K) {X X' : Iv K} (h : Nested X X') {ι : Type*} (l : List ι) (F F' : ι → Iv K)
    (hF : ∀ i ∈ l, Nested (F i) (F' i)) : Nested (subSum R X (l.map F)) (subSum R X' (l.map F')) := by
  cases l with
  | nil => exact nested_radd R _ h
  | cons i t =>
    simp only [List.map_cons, subSum]
    refine nested_sub R h (nested_foldl R _ _ ?_ _ _ (nested_radd R 0 (hF i (by simp))))
    rw [List.forall₂_map_left_iff, List.forall₂_map_right_iff, List.forall₂_same]
    exact fun j hj => hF j (by simp [hj])

theorem nested_div (R : Rnd K) {X X' Y Y' Z' : Iv K} (h : Nested X X') (k : Nested Y Y') (hd : X'.div R Y' = .ok Z') :
    ∃ Z, X.div R Y = .ok Z ∧ Nested Z Z' := by
  have h0' : ¬ (0 : K) ∈ Y' := fun h0 => by
    rw [((C03_div_error_iff R X' Y' h.2.1 k.2.1).1).mpr h0] at hd; cases hd
  have h0 : ¬ (0 : K) ∈ Y := fun h0 => h0' (k.2.2 _ h0)
  obtain ⟨W, hW, oW⟩ := ((C03_div_error_iff R X Y h.1 k.1).2).mpr h0
  obtain ⟨W', hW', oW'⟩ := ((C03_div_error_iff R X' Y' h.2.1 k.2.1).2).mpr h0'
  rw [hW'] at hd
  cases hd
  refine ⟨W, hW, nested_of oW oW' ?_⟩
  rw [div_eq_divCC R h.1 k.1 h0] at hW
  rw [div_eq_divCC R h.2.1 k.2.1 h0'] at hW'
  cases hW; cases hW'
  exact divCC_inside R h.1 k.1 k.2.1 (nested_ends h) (nested_ends k) h0'

/-- C152: entries of a product of interval matrices. -/
theorem C152_matmul (R : Rnd K) {n : ℕ} (x x' y y' : Fin n → Iv K) (hx : ∀ j, Nested (x j) (x' j))
    (hy : ∀ j, Nested (y j) (y' j)) :
    ∀ Z Z', dotII R (List.ofFn x) (List.ofFn y) = some Z → dotII R (List.ofFn x') (List.ofFn y') = some Z' →
      Nested Z Z' := by
  intro Z Z' h h'
  cases n with
  | zero => simp [dotII, objDot] at h
  | succ n =>
    simp only [dotII, List.ofFn_succ, objDot, Option.some.injEq] at h h'
    subst h; subst h'
    refine nested_foldl R _ _ ?_ _ _ (nested_mul R (hx 0) (hy 0))
    rw [List.forall₂_iff_get]
    refine ⟨by simp, fun i h1 h2 => ?_⟩
    simp only [List.get_eq_getElem, List.getElem_zipWith, List.getElem_ofFn]
    exact nested_mul R (hx _) (hy _)

/-- C152: entries of the product of a point row and an interval column. -/
theorem C152_matmul_point (R : Rnd K) {n : ℕ} (c : Fin n → K) (y y' : Fin n → Iv K) (hy : ∀ j, Nested (y j) (y' j)) :
    ∀ Z Z', dotNI R (List.ofFn c) (List.ofFn y) = some Z → dotNI R (List.ofFn c) (List.ofFn y') = some Z' →
      Nested Z Z' := by
  intro Z Z' h h'
  cases n with
  | zero => simp [dotNI, objDot] at h
  | succ n =>
    simp only [dotNI, List.ofFn_succ, objDot, Option.some.injEq] at h h'
    subst h; subst h'
    refine nested_foldl R _ _ ?_ _ _ (nested_rmul R (c 0) (hy 0))
    rw [List.forall₂_iff_get]
    refine ⟨by simp, fun i h1 h2 => ?_⟩
    simp only [List.get_eq_getElem, List.getElem_zipWith, List.getElem_ofFn]
    exact nested_rmul R _ (hy _)

/-- `[1, 2]·[0, 1] + [1, 1]·[2, 2]` in `[1, 3]·[-1, 1] + [1, 1]·[2, 3]`. -/
example : ∃ Z Z', dotII (Rnd.exact : Rnd ℚ) [⟨.classical, 1, 2⟩, ⟨.classical, 1, 1⟩] [⟨.classical, 0, 1⟩, ⟨.classical, 2, 2⟩] = some Z ∧
    dotII (Rnd.exact : Rnd ℚ) [⟨.classical, 1, 3⟩, ⟨.classical, 1, 1⟩] [⟨.classical, -1, 1⟩, ⟨.classical, 2, 3⟩] = some Z' ∧
    Z = ⟨.classical, 2, 4⟩ ∧ Z' = ⟨.classical, -1, 6⟩ := by
  refine ⟨_, _, rfl, rfl, ?_, ?_⟩ <;> decide +kernel

/-! ## Gauss_Seidel -/

theorem nested_intersect (R : Rnd K) {X X' Y Y' : Iv K} (h : Nested X X') (k : Nested Y Y') (t : K) (hX : t ∈ X)
    (hY : t ∈ Y) : ∃ Z Z', intersect R X Y = some Z ∧ intersect R X' Y' = some Z' ∧ Nested Z Z' ∧ t ∈ Z := by
  obtain ⟨Z, h1, o1, m1⟩ := (C23_intersection_partial R X Y).1 t hX hY
  obtain ⟨Z', h2, o2, m2⟩ := (C23_intersection_partial R X' Y').1 t (h.2.2 t hX) (k.2.2 t hY)
  refine ⟨Z, Z', h1, h2, ⟨o1, o2, fun s hs => ?_⟩, m1⟩
  have e1 := ((C23_intersection_partial R X Y).2.1 Z h1 ⟨t, hX, hY⟩ s).mp hs
  exact ((C23_intersection_partial R X' Y').2.1 Z' h2 ⟨t, h.2.2 t hX, k.2.2 t hY⟩ s).mpr ⟨h.2.2 s e1.1, k.2.2 s e1.2⟩

theorem nested_gsBar (R : Rnd K) {n : ℕ} (A A' : Fin n → Fin n → Iv K) (b b' res res' pre pre' : Fin n → Iv K)
    (hA : ∀ i j, Nested (A i j) (A' i j)) (hb : ∀ i, Nested (b i) (b' i)) (hpre : ∀ i, Nested (pre i) (pre' i))
    (k : Fin n) (hres : ∀ j, j < k → Nested (res j) (res' j)) (bar' : Iv K)
    (h : gsBar R A' b' res' pre' k = .ok bar') : ∃ bar, gsBar R A b res pre k = .ok bar ∧ Nested bar bar' := by
  refine nested_div R (nested_subSum R (nested_subSum R (hb k) _ _ _ fun j hj => ?_) _ _ _ fun j _ => ?_) (hA k k) h
  · have hj' : j < k := by simpa using (List.mem_filter.mp hj).2
    exact nested_mul R (hA k j) (hres j hj')
  · exact nested_mul R (hA k j) (hpre j)

/-- What the solution satisfies in each component. -/
theorem gsBar_solution (R : Rnd K) {n : ℕ} (A : Fin n → Fin n → Iv K) (b res pre : Fin n → Iv K)
    (hA : ∀ i j, Ordinary (A i j)) (hb : ∀ i, Ordinary (b i)) (hpre : ∀ i, Ordinary (pre i)) (x : Fin n → K)
    (hx : United A b x) (hxp : InVec x pre) (k : Fin n) (hres : ∀ j, j < k → Ordinary (res j) ∧ x j ∈ res j)
    (bar : Iv K) (h : gsBar R A b res pre k = .ok bar) : x k ∈ bar := by
  obtain ⟨A', hA', b', hb', he⟩ := hx
  obtain ⟨h1, h1'⟩ := subSum_encloses R (b k) (b' k) (hb k) (hb' k)
    ((List.finRange n).filter fun j => j < k) (fun j => (A k j).mul R (res j)) (fun j => A' k j * x j)
    (fun j hj => by
      have hj' : j < k := by simpa using (List.mem_filter.mp hj).2
      exact mul_point R _ _ (hA k j) (hres j hj').1 _ _ (hA' k j) (hres j hj').2)
  obtain ⟨h2, h2'⟩ := subSum_encloses R _ _ h1' h1
    ((List.finRange n).filter fun j => k < j) (fun j => (A k j).mul R (pre j)) (fun j => A' k j * x j)
    (fun j _ => mul_point R _ _ (hA k j) (hpre j) _ _ (hA' k j) (hxp j))
  have heq : A' k k * x k = b' k - (((List.finRange n).filter fun j => j < k).map fun j => A' k j * x j).sum
      - (((List.finRange n).filter fun j => k < j).map fun j => A' k j * x j).sum := by
    rw [← he k, apply, sum_split _ k]; ring
  exact (div_point R _ _ bar h2' (hA k k) h _ _ (x k) h2 (hA' k k) heq).1

theorem nested_gsSweep (R : Rnd K) {n : ℕ} (A A' : Fin n → Fin n → Iv K) (b b' pre pre' : Fin n → Iv K)
    (hA : ∀ i j, Nested (A i j) (A' i j)) (hb : ∀ i, Nested (b i) (b' i)) (hpre : ∀ i, Nested (pre i) (pre' i))
    (x : Fin n → K) (hx : United A b x) (hxp : InVec x pre) (ks : List (Fin n)) (hs : ks.Pairwise (· < ·))
    (res res' : Fin n → Iv K) (hres : ∀ i, i ∉ ks → Nested (res i) (res' i) ∧ x i ∈ res i) (Z' : Fin n → Iv K)
    (h : gsSweep R A' b' pre' ks res' = .ok Z') :
    ∃ Z, gsSweep R A b pre ks res = .ok Z ∧ (∀ i, Nested (Z i) (Z' i)) ∧ InVec x Z := by
  induction ks generalizing res res' with
  | nil =>
    simp only [gsSweep, Except.ok.injEq] at h
    subst h
    exact ⟨res, rfl, fun i => (hres i (by simp)).1, fun i => (hres i (by simp)).2⟩
  | cons k ks ih =>
    have hlt : ∀ j, j < k → j ∉ k :: ks := by
      intro j hj hm
      rcases List.mem_cons.mp hm with e | e
      · exact (e ▸ hj).false
      · exact (hj.trans ((List.pairwise_cons.mp hs).1 j e)).false
    unfold gsSweep at h
    cases hbar : gsBar R A' b' res' pre' k with
    | error e => rw [hbar] at h; cases h
    | ok bar' =>
      rw [hbar] at h
      dsimp only at h
      obtain ⟨bar, hb1, hb2⟩ := nested_gsBar R A A' b b' res res' pre pre' hA hb hpre k
        (fun j hj => (hres j (hlt j hj)).1) bar' hbar
      have hxk := gsBar_solution R A b res pre (fun i j => (hA i j).1) (fun i => (hb i).1) (fun i => (hpre i).1) x hx hxp k
        (fun j hj => ⟨(hres j (hlt j hj)).1.1, (hres j (hlt j hj)).2⟩) bar hb1
      obtain ⟨W, W', w1, w2, w3, w4⟩ := nested_intersect R (hpre k) hb2 (x k) (hxp k) hxk
      rw [w2] at h
      dsimp only at h
      obtain ⟨Z, z1, z2, z3⟩ := ih (List.pairwise_cons.mp hs).2 (Function.update res k W) (Function.update res' k W')
        (by
          intro i hi
          by_cases e : i = k
          · subst e; simpa using ⟨w3, w4⟩
          · rw [Function.update_of_ne e, Function.update_of_ne e]
            exact hres i (by simp [e, hi])) h
      exact ⟨Z, by unfold gsSweep; rw [hb1]; dsimp only; rw [w1]; exact z1, z2, z3⟩

theorem distVec_nonneg (x y : List (Iv K)) (d : K) (h : distVec x y = .ok d) : 0 ≤ d := by
  have h1 := npAmax_spec h
  obtain ⟨i, hi, he⟩ : ∃ c ∈ List.zipWith cheb x y, c = d := ⟨d, h1.1, rfl⟩
  rw [List.mem_iff_getElem] at hi
  obtain ⟨j, hj, hij⟩ := hi
  rw [← he, ← hij, List.getElem_zipWith]
  exact (abs_nonneg _).trans (le_max_left _ _)

/-- With a tolerance that is not positive all the passes are made. -/
theorem nested_gsLoop (R : Rnd K) {n : ℕ} (A A' : Fin n → Fin n → Iv K) (b b' : Fin n → Iv K) (tol tol' : K)
    (ht : tol ≤ 0) (ht' : tol' ≤ 0)
    (hA : ∀ i j, Nested (A i j) (A' i j)) (hb : ∀ i, Nested (b i) (b' i)) (x : Fin n → K) (hx : United A b x) :
    ∀ (fuel : ℕ) (d d' : Option K) (pre res pre' res' : Fin n → Iv K), (∀ i, Nested (pre i) (pre' i)) → InVec x pre →
      ((0 < fuel ∧ d = none ∧ d' = none) ∨ (res = pre ∧ res' = pre' ∧ (∀ e, d = some e → 0 ≤ e) ∧ ∀ e, d' = some e → 0 ≤ e)) →
      ∀ X X', gsLoop R A b tol fuel d pre res = .ok X → gsLoop R A' b' tol' fuel d' pre' res' = .ok X' →
        ∀ i, Nested (X i) (X' i) := by
  intro fuel
  induction fuel with
  | zero =>
    intro d d' pre res pre' res' hp hxp hd X X' h h'
    rcases hd with hd | ⟨e1, e2, _⟩
    · exact absurd hd.1 (lt_irrefl _)
    · simp only [gsLoop, Except.ok.injEq] at h h'
      subst h; subst h'; subst e1; subst e2
      exact hp
  | succ fuel ih =>
    intro d d' pre res pre' res' hp hxp hd X X' h h'
    have far : gsFar tol d = true ∧ gsFar tol' d' = true := by
      have f : ∀ (s : K) (c : Option K), s ≤ 0 → (∀ e, c = some e → 0 ≤ e) → gsFar s c = true := by
        intro s c hs hc
        cases c with
        | none => rfl
        | some e => exact decide_eq_true (hs.trans (hc e rfl))
      rcases hd with ⟨_, e1, e2⟩ | ⟨_, _, e1, e2⟩
      · rw [e1, e2]; exact ⟨rfl, rfl⟩
      · exact ⟨f _ _ ht e1, f _ _ ht' e2⟩
    unfold gsLoop at h h'
    rw [if_pos far.1] at h
    rw [if_pos far.2] at h'
    cases hsw : gsSweep R A' b' pre' (List.finRange n) res' with
    | error e => rw [hsw] at h'; cases h'
    | ok Z' =>
      obtain ⟨Z, z1, z2, z3⟩ := nested_gsSweep R A A' b b' pre pre' hA hb hp x hx hxp _ (List.pairwise_lt_finRange n)
        res res' (fun i hi => absurd (List.mem_finRange i) hi) Z' hsw
      rw [hsw] at h'
      rw [z1] at h
      dsimp only at h h'
      cases hdv : distVec (List.ofFn Z) (List.ofFn pre) with
      | error e => rw [hdv] at h; cases h
      | ok dd =>
        cases hdv' : distVec (List.ofFn Z') (List.ofFn pre') with
        | error e => rw [hdv'] at h'; cases h'
        | ok dd' =>
          rw [hdv] at h
          rw [hdv'] at h'
          exact ih (some dd) (some dd') Z Z Z' Z' z2 z3 (Or.inr ⟨rfl, rfl,
            fun e he => by cases he; exact distVec_nonneg _ _ _ hdv,
            fun e he => by cases he; exact distVec_nonneg _ _ _ hdv'⟩) X X' h h'

/-- The preconditioner of the narrower problem: the same point matrix, or a narrower interval matrix. -/
inductive NestedPrecond {n : ℕ} : Precond K n → Precond K n → Prop
  | point (C : Fin n → Fin n → K) : NestedPrecond (.point C) (.point C)
  | iv (D D' : Fin n → Fin n → Iv K) (h : ∀ i j, Nested (D i j) (D' i j)) : NestedPrecond (.iv D) (.iv D')

theorem nested_precond (R : Rnd K) {n : ℕ} {C C' : Precond K n} (hC : NestedPrecond C C') (A A' : Fin n → Fin n → Iv K)
    (b b' : Fin n → Iv K) (hA : ∀ i j, Nested (A i j) (A' i j)) (hb : ∀ i, Nested (b i) (b' i)) :
    (∀ i j, Nested (C.mulMat R A i j) (C'.mulMat R A' i j)) ∧ ∀ i, Nested (C.mulVec R b i) (C'.mulVec R b' i) := by
  cases n with
  | zero => exact ⟨fun i => i.elim0, fun i => i.elim0⟩
  | succ n =>
    have some2 : ∀ x y : Fin (n + 1) → Iv K, ∃ Z, dotII R (List.ofFn x) (List.ofFn y) = some Z := fun x y => by
      simp [dotII, List.ofFn_succ, objDot]
    have some1 : ∀ (c : Fin (n + 1) → K) (y : Fin (n + 1) → Iv K), ∃ Z, dotNI R (List.ofFn c) (List.ofFn y) = some Z :=
      fun x y => by simp [dotNI, List.ofFn_succ, objDot]
    cases hC with
    | point C =>
      constructor
      · intro i j
        obtain ⟨Z, hZ⟩ := some1 (C i) fun k => A k j
        obtain ⟨Z', hZ'⟩ := some1 (C i) fun k => A' k j
        simp only [Precond.mulMat, hZ, hZ', dotEntry, Option.getD_some]
        exact C152_matmul_point R (C i) _ _ (fun k => hA k j) Z Z' hZ hZ'
      · intro i
        obtain ⟨Z, hZ⟩ := some1 (C i) b
        obtain ⟨Z', hZ'⟩ := some1 (C i) b'
        simp only [Precond.mulVec, hZ, hZ', dotEntry, Option.getD_some]
        exact C152_matmul_point R (C i) _ _ hb Z Z' hZ hZ'
    | iv D D' hD =>
      constructor
      · intro i j
        obtain ⟨Z, hZ⟩ := some2 (D i) fun k => A k j
        obtain ⟨Z', hZ'⟩ := some2 (D' i) fun k => A' k j
        simp only [Precond.mulMat, hZ, hZ', dotEntry, Option.getD_some]
        exact C152_matmul R (D i) (D' i) _ _ (hD i) (fun k => hA k j) Z Z' hZ hZ'
      · intro i
        obtain ⟨Z, hZ⟩ := some2 (D i) b
        obtain ⟨Z', hZ'⟩ := some2 (D' i) b'
        simp only [Precond.mulVec, hZ, hZ', dotEntry, Option.getD_some]
        exact C152_matmul R (D i) (D' i) _ _ (hD i) hb Z Z' hZ hZ'

/-- C152, the property: with the preconditioner given, a narrower system with a solution in a narrower start box gives
a narrower result. -/
def C152_statement : Prop :=
  ∀ (R : Rnd ℚ) (n : ℕ) (inv : (Fin n → Fin n → ℚ) → Except Err (Fin n → Fin n → ℚ))
    (A A' : Fin n → Fin n → Iv ℚ) (b b' box box' : Fin n → Iv ℚ) (C C' : Precond ℚ n) (tol : ℚ) (maxiter : ℤ),
    0 ≤ maxiter → (∀ i j, Nested (A i j) (A' i j)) → (∀ i, Nested (b i) (b' i)) → (∀ i, Nested (box i) (box' i)) →
    NestedPrecond C C' → (∃ x, United A b x ∧ InVec x box) → ∀ X X',
    gaussSeidel R inv A b (some box) (some C) tol maxiter = .ok X →
    gaussSeidel R inv A' b' (some box') (some C') tol maxiter = .ok X' → ∀ i, Sub (X i) (X' i)

/-- C152 holds when the tolerance is not positive, so that all the passes are made; the inverses need not be related.
(For a positive tolerance the narrower problem may stop earlier, `C152_false`.) -/
theorem C152_partial (R : Rnd K) {n : ℕ} (inv inv' : (Fin n → Fin n → K) → Except Err (Fin n → Fin n → K))
    (A A' : Fin n → Fin n → Iv K) (b b' box box' : Fin n → Iv K) (C C' : Precond K n) (tol tol' : K) (ht : tol ≤ 0)
    (ht' : tol' ≤ 0) (maxiter : ℤ) (hm : 0 ≤ maxiter) (hA : ∀ i j, Nested (A i j) (A' i j))
    (hb : ∀ i, Nested (b i) (b' i)) (hbox : ∀ i, Nested (box i) (box' i)) (hC : NestedPrecond C C')
    (hx : ∃ x, United A b x ∧ InVec x box) (X X' : Fin n → Iv K)
    (h : gaussSeidel R inv A b (some box) (some C) tol maxiter = .ok X)
    (h' : gaussSeidel R inv' A' b' (some box') (some C') tol' maxiter = .ok X') (i : Fin n) : Sub (X i) (X' i) := by
  obtain ⟨x, hx, hxb⟩ := hx
  obtain ⟨pA, pb⟩ := nested_precond R hC A A' b b' hA hb
  have hCo : ∀ D, C = .iv D → ∀ i j, Ordinary (D i j) := by
    intro D hD
    cases hC with
    | point C => cases hD
    | iv D1 D2 hD' => cases hD; exact fun i j => (hD' i j).1
  have p1 := (precond_solution R C A b hCo (fun i j => (hA i j).1) (fun i => (hb i).1) x hx).1
  unfold gaussSeidel at h h'
  simp only [gsPrecond, gsStart] at h h'
  split at h
  · cases h
  · split at h'
    · cases h'
    · split_ifs at h h'
      exact (nested_gsLoop R _ _ _ _ tol tol' ht ht' pA pb x p1 _ none none _ _ _ _ hbox hxb
        (Or.inl ⟨by omega, rfl, rfl⟩) X X' h h' i).2.2

/-- `2 x + y = 0`, `x + 2 y = 0` from `[-e, e]²` with tolerance one: the first component of the result. -/
def gsIsoRun (e : ℚ) : Option (ℚ × ℚ) :=
  match gaussSeidel (Rnd.exact : Rnd ℚ) (fun M => .ok M) (fun i j : Fin 2 => if i = j then ⟨.classical, 2, 2⟩ else ⟨.classical, 1, 1⟩)
      (fun _ => ⟨.classical, 0, 0⟩) (some fun _ => ⟨.classical, -e, e⟩)
      (some (.point fun i j => if i = j then 1 else 0)) 1 100 with
  | .ok X => some ((X 0).a, (X 0).b)
  | .error _ => none

/-- C152 is false of the code for a positive tolerance: from `[-13/10, 13/10]²` the first pass changes the box by less
than one and the result is wider than the one from `[-4, 4]²`. -/
theorem C152_false : ¬ C152_statement := by
  intro hst
  have h1 : gsIsoRun (13 / 10) = some (-13 / 20, 13 / 20) := by decide +kernel
  have h2 : gsIsoRun 4 = some (-1 / 8, 1 / 8) := by decide +kernel
  unfold gsIsoRun at h1 h2
  split at h1
  · rename_i X hX
    split at h2
    · rename_i X' hX'
      have oo : ∀ i j : Fin 2, Ordinary (if i = j then (⟨.classical, 2, 2⟩ : Iv ℚ) else ⟨.classical, 1, 1⟩) := by
        intro i j; split_ifs <;> exact ⟨rfl, le_refl _⟩
      have := hst Rnd.exact 2 _ _ _ _ _ _ _ _ _ 1 100 (by norm_num) (fun i j => ⟨oo i j, oo i j, fun s hs => hs⟩)
        (fun i => ⟨⟨rfl, le_refl _⟩, ⟨rfl, le_refl _⟩, fun s hs => hs⟩)
        (fun i => ⟨⟨rfl, by norm_num⟩, ⟨rfl, by norm_num⟩, fun s hs => ⟨?_, ?_⟩⟩) (.point _)
        ⟨fun _ => 0, ⟨fun i j => if i = j then 2 else 1, fun i j => ?_, fun _ => 0, fun i => ⟨le_refl _, le_refl _⟩,
          fun i => by simp [apply]⟩, fun i => ⟨?_, ?_⟩⟩ X X' hX hX' 0
      · simp only [Option.some.injEq, Prod.mk.injEq] at h1 h2
        have hm := (this (13 / 20) ⟨by rw [h1.1]; norm_num, by rw [h1.2]⟩).2
        rw [h2.2] at hm
        norm_num at hm
      · have := hs.1; dsimp only at this ⊢; linarith
      · have := hs.2; dsimp only at this ⊢; linarith
      · dsimp only; split_ifs <;> exact ⟨le_refl _, le_refl _⟩
      · norm_num
      · norm_num
    · cases h2
  · cases h1

/-- The same with tolerance zero and two passes. -/
example : (match gaussSeidel (Rnd.exact : Rnd ℚ) (fun M => .ok M)
      (fun i j : Fin 2 => if i = j then ⟨.classical, 2, 2⟩ else ⟨.classical, 1, 1⟩)
      (fun _ => ⟨.classical, 0, 0⟩) (some fun _ => ⟨.classical, -4, 4⟩)
      (some (.point fun i j => if i = j then 1 else 0)) 0 1 with
    | .ok X => some ((X 0).a, (X 0).b)
    | .error _ => none) = some (-1 / 2, 1 / 2) := by decide +kernel

end IntvalPy
