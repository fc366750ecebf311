import Verif.ModelLinear
import Verif.PropsArray
import Verif.PropsObjects
import Verif.SpecRecFun
import Mathlib.Data.Fin.VecNotation

/-!
# Gauss and Gauss_Seidel (C37, C38)
-/

set_option autoImplicit false
set_option linter.unusedSectionVars false

namespace IntvalPy
open Spec

variable {K : Type*} [Field K] [LinearOrder K] [IsStrictOrderedRing K]

theorem ordinary_zero : Ordinary (zeroIv : Iv K) := ⟨rfl, le_refl _⟩
theorem mem_zero : (0 : K) ∈ (zeroIv : Iv K) := ⟨le_refl _, le_refl _⟩

/-- `X - sum(l)` encloses, and stays ordinary. -/
theorem subSum_encloses {ι : Type*} (R : Rnd K) (X : Iv K) (x : K) (hX : Ordinary X) (hx : x ∈ X)
    (l : List ι) (F : ι → Iv K) (f : ι → K) (hF : ∀ i ∈ l, Ordinary (F i) ∧ f i ∈ F i) :
    x - (l.map f).sum ∈ subSum R X (l.map F) ∧ Ordinary (subSum R X (l.map F)) := by
  cases l with
  | nil =>
    refine ⟨?_, ?_⟩
    · have := (C05_radd_rsub_enclose R 0 X).2.2.2.2 (x - 0) ⟨x, hx, rfl⟩
      simpa [subSum] using this
    · simp only [List.map_nil, subSum, Iv.subNum, Iv.radd, Ordinary, hX.1, true_and]
      exact (R.dn_le _).trans ((add_le_add_left hX.2 _).trans (R.le_up _))
  | cons i t =>
    have hi := hF i (by simp)
    have h0 : f i ∈ (F i).radd R 0 := by
      simpa using (C05_radd_rsub_enclose R 0 (F i)).1 (0 + f i) ⟨f i, hi.2, rfl⟩
    have h0' : Ordinary ((F i).radd R 0) := by
      simp only [Iv.radd, Ordinary, hi.1.1, true_and]
      exact (R.dn_le _).trans ((add_le_add_left hi.1.2 _).trans (R.le_up _))
    have h2 : List.Forall₂ (fun (z : K) (Z : Iv K) => z ∈ Z ∧ Ordinary Z) (t.map f) (t.map F) := by
      rw [List.forall₂_map_left_iff, List.forall₂_map_right_iff, List.forall₂_same]
      exact fun j hj => ⟨(hF j (by simp [hj])).2, (hF j (by simp [hj])).1⟩
    obtain ⟨h3, h4⟩ := foldl_add_encloses R _ _ _ _ h2 h0 h0'
    simp only [List.map_cons, List.sum_cons, subSum]
    exact ⟨C01_sub_encloses R X _ _ ⟨x, hx, _, h3, rfl⟩, (C01_add_sub_ordinary R X _ hX h4).2⟩

/-- Division of a point by a point through `div`. -/
theorem div_point (R : Rnd K) (X Y Z : Iv K) (hX : Ordinary X) (hY : Ordinary Y) (h : X.div R Y = .ok Z)
    (x y t : K) (hx : x ∈ X) (hy : y ∈ Y) (ht : y * t = x) : t ∈ Z ∧ Ordinary Z := by
  have h0 : ¬ (0 : K) ∈ Y := fun h0 => by
    rw [((C03_div_error_iff R X Y hX hY).1).mpr h0] at h; cases h
  have hy0 : y ≠ 0 := fun e => h0 (e ▸ hy)
  refine ⟨C03_div_encloses R X Y Z hX hY h t ⟨x, hx, y, hy, ?_⟩, ?_⟩
  · rw [← ht, mul_div_cancel_left₀ _ hy0]
  · obtain ⟨Z', h1, h2⟩ := ((C03_div_error_iff R X Y hX hY).2).mpr h0
    rw [h] at h1; cases h1; exact h2

theorem mul_point (R : Rnd K) (X Y : Iv K) (hX : Ordinary X) (hY : Ordinary Y) (x y : K) (hx : x ∈ X)
    (hy : y ∈ Y) : Ordinary (X.mul R Y) ∧ x * y ∈ X.mul R Y :=
  ⟨C02_mul_ordinary R X Y hX hY, C02_mul_encloses R X Y hX hY _ ⟨x, hx, y, hy, rfl⟩⟩

/-! ## C38 -/

/-- The preconditioned system has the solutions of the original one. -/
theorem precond_solution (R : Rnd K) {n : ℕ} (C : Precond K n) (A : Fin n → Fin n → Iv K)
    (b : Fin n → Iv K) (hC : ∀ D, C = .iv D → ∀ i j, Ordinary (D i j))
    (hA : ∀ i j, Ordinary (A i j)) (hb : ∀ i, Ordinary (b i)) (x : Fin n → K) (hx : United A b x) :
    United (C.mulMat R A) (C.mulVec R b) x ∧ (∀ i j, Ordinary (C.mulMat R A i j)) ∧
      ∀ i, Ordinary (C.mulVec R b i) := by
  rcases Nat.eq_zero_or_pos n with rfl | hn
  · exact ⟨⟨fun i => i.elim0, fun i => i.elim0, fun i => i.elim0, fun i => i.elim0, fun i => i.elim0⟩,
      fun i => i.elim0, fun i => i.elim0⟩
  obtain ⟨A', hA', b', hb', he⟩ := hx
  obtain ⟨C', hM, hV⟩ : ∃ C' : Fin n → Fin n → K,
      (∀ i l, Ordinary (C.mulMat R A i l) ∧ ∑ j, C' i j * A' j l ∈ C.mulMat R A i l) ∧
      (∀ i, Ordinary (C.mulVec R b i) ∧ ∑ j, C' i j * b' j ∈ C.mulVec R b i) := by
    cases C with
    | point C =>
      refine ⟨C, fun i l => ?_, fun i => ?_⟩
      · obtain ⟨Z, h1, h2, h3⟩ := (C26_matmul_point_encloses R (fun j => A j l) (C i) hn (fun j => hA j l)
          (fun j => A' j l) fun j => hA' j l).2
        simp only [Precond.mulMat, h1, dotEntry, Option.getD_some]
        exact ⟨h2, h3⟩
      · obtain ⟨Z, h1, h2, h3⟩ := (C26_matmul_point_encloses R b (C i) hn hb b' hb').2
        simp only [Precond.mulVec, h1, dotEntry, Option.getD_some]
        exact ⟨h2, h3⟩
    | iv D =>
      have hD := hC D rfl
      refine ⟨fun i j => (D i j).a, fun i l => ?_, fun i => ?_⟩
      · obtain ⟨Z, h1, h2, h3⟩ := C26_matmul_encloses R D A hn hD hA (fun i j => (D i j).a) A'
          (fun i j => ⟨le_refl _, (hD i j).2⟩) hA' i l
        simp only [Precond.mulMat, h1, dotEntry, Option.getD_some]
        exact ⟨h2, h3⟩
      · obtain ⟨Z, h1, h2, h3⟩ := C26_matmul_encloses R D (fun j (_ : Fin 1) => b j) hn hD
          (fun j _ => hb j) (fun i j => (D i j).a) (fun j _ => b' j)
          (fun i j => ⟨le_refl _, (hD i j).2⟩) (fun j _ => hb' j) i 0
        simp only [Precond.mulVec, h1, dotEntry, Option.getD_some]
        exact ⟨h2, h3⟩
  refine ⟨⟨fun i l => ∑ j, C' i j * A' j l, fun i l => (hM i l).2, fun i => ∑ j, C' i j * b' j,
    fun i => (hV i).2, fun i => ?_⟩, fun i l => (hM i l).1, fun i => (hV i).1⟩
  simp only [apply, Finset.sum_mul]
  rw [Finset.sum_comm]
  refine Finset.sum_congr rfl fun j _ => ?_
  rw [← he j, apply, Finset.mul_sum]
  exact Finset.sum_congr rfl fun l _ => by ring

/-- Splitting a sum over all indices at `k`. -/
theorem sum_split {n : ℕ} (f : Fin n → K) (k : Fin n) :
    ∑ j, f j = (((List.finRange n).filter fun j => j < k).map f).sum + f k +
      (((List.finRange n).filter fun j => k < j).map f).sum := by
  have e : ∀ p : Fin n → Prop, ∀ [DecidablePred p],
      (((List.finRange n).filter fun j => p j).map f).sum = ∑ j, if p j then f j else 0 := by
    intro p _
    have : ∀ l : List (Fin n), ((l.filter fun j => p j).map f).sum
        = (l.map fun j => if p j then f j else 0).sum := by
      intro l
      induction l with
      | nil => rfl
      | cons a l ih =>
        by_cases h : p a <;> simp [h, ih]
    rw [this, ← List.ofFn_eq_map, List.sum_ofFn]
  rw [e (fun j => j < k), e (fun j => k < j)]
  have : f k = ∑ j, if j = k then f j else 0 := by simp
  conv_rhs => rw [this]
  rw [← Finset.sum_add_distrib, ← Finset.sum_add_distrib]
  refine Finset.sum_congr rfl fun j _ => ?_
  rcases lt_trichotomy j k with h | h | h
  · simp [h, h.ne, not_lt.mpr h.le]
  · simp [h]
  · simp [h, h.ne', not_lt.mpr h.le]

/-- One sweep keeps a solution of the (preconditioned) system. -/
theorem gsSweep_spec (R : Rnd K) {n : ℕ} (A : Fin n → Fin n → Iv K) (b pre : Fin n → Iv K)
    (hA : ∀ i j, Ordinary (A i j)) (hb : ∀ i, Ordinary (b i)) (hpre : ∀ i, Ordinary (pre i))
    (x : Fin n → K) (hx : United A b x) (hxp : InVec x pre) (ks : List (Fin n)) (hs : ks.Pairwise (· < ·))
    (res : Fin n → Iv K) (hres : ∀ i, i ∉ ks → x i ∈ res i ∧ Ordinary (res i) ∧ Sub (res i) (pre i)) :
    gsSweep R A b pre ks res ≠ .error .exception ∧
    ∀ res', gsSweep R A b pre ks res = .ok res' →
      InVec x res' ∧ (∀ i, Ordinary (res' i)) ∧ ∀ i, Sub (res' i) (pre i) := by
  induction ks generalizing res with
  | nil =>
    refine ⟨by simp [gsSweep], fun res' h => ?_⟩
    simp only [gsSweep, Except.ok.injEq] at h
    subst h
    exact ⟨fun i => (hres i (by simp)).1, fun i => (hres i (by simp)).2.1, fun i => (hres i (by simp)).2.2⟩
  | cons k ks ih =>
    obtain ⟨A', hA', b', hb', he⟩ := hx
    have hlt : ∀ j, j < k → j ∉ k :: ks := by
      intro j hj hm
      rcases List.mem_cons.mp hm with e | e
      · exact (e ▸ hj).false
      · exact (hj.trans ((List.pairwise_cons.mp hs).1 j e)).false
    obtain ⟨h1, h1'⟩ := subSum_encloses R (b k) (b' k) (hb k) (hb' k)
      ((List.finRange n).filter fun j => j < k) (fun j => (A k j).mul R (res j)) (fun j => A' k j * x j)
      (fun j hj => by
        have hj' : j < k := by simpa using (List.mem_filter.mp hj).2
        exact mul_point R _ _ (hA k j) (hres j (hlt j hj')).2.1 _ _ (hA' k j) (hres j (hlt j hj')).1)
    obtain ⟨h2, h2'⟩ := subSum_encloses R _ _ h1' h1
      ((List.finRange n).filter fun j => k < j) (fun j => (A k j).mul R (pre j)) (fun j => A' k j * x j)
      (fun j _ => mul_point R _ _ (hA k j) (hpre j) _ _ (hA' k j) (hxp j))
    have heq : A' k k * x k = b' k - (((List.finRange n).filter fun j => j < k).map fun j => A' k j * x j).sum
        - (((List.finRange n).filter fun j => k < j).map fun j => A' k j * x j).sum := by
      rw [← he k, apply, sum_split _ k]; ring
    cases hbar : gsBar R A b res pre k with
    | error e =>
      refine ⟨?_, fun res' h => ?_⟩
      · intro h
        simp only [gsSweep, hbar, Except.error.injEq] at h
        subst h
        unfold gsBar at hbar
        by_cases h0 : (0 : K) ∈ A k k
        · rw [((C03_div_error_iff R _ _ h2' (hA k k)).1).mpr h0] at hbar; cases hbar
        · obtain ⟨Z, hz, _⟩ := ((C03_div_error_iff R _ _ h2' (hA k k)).2).mpr h0
          rw [hz] at hbar; cases hbar
      · simp [gsSweep, hbar] at h
    | ok bar =>
      have hx' := (div_point R _ _ bar h2' (hA k k) hbar _ _ (x k) h2 (hA' k k) heq).1
      obtain ⟨Z, hZ, hZo, hZx⟩ := (C23_intersection_partial R (pre k) bar).1 (x k) (hxp k) hx'
      have hsub : Sub Z (pre k) := fun s hs =>
        (((C23_intersection_partial R (pre k) bar).2.1 Z hZ ⟨x k, hxp k, hx'⟩ s).mp hs).1
      have := ih (List.pairwise_cons.mp hs).2 (Function.update res k Z) (by
        intro i hi
        by_cases e : i = k
        · subst e; simpa using ⟨hZx, hZo, hsub⟩
        · rw [Function.update_of_ne e]
          exact hres i (by simp [e, hi]))
      simpa only [gsSweep, hbar, hZ] using this

theorem distVec_no_exception (x y : List (Iv K)) : distVec x y ≠ .error .exception := by
  unfold distVec npAmax
  split <;> simp

/-- The loop keeps a solution. -/
theorem gsLoop_spec (R : Rnd K) {n : ℕ} (A : Fin n → Fin n → Iv K) (b : Fin n → Iv K) (tol : K)
    (hA : ∀ i j, Ordinary (A i j)) (hb : ∀ i, Ordinary (b i)) (x : Fin n → K) (hx : United A b x)
    (start : Fin n → Iv K) :
    ∀ (fuel : ℕ) (d : Option K) (pre res : Fin n → Iv K), (∀ i, Ordinary (pre i)) → InVec x pre →
      (∀ i, Sub (pre i) (start i)) →
      ((0 < fuel ∧ d = none) ∨ (InVec x res ∧ ∀ i, Sub (res i) (start i))) →
      gsLoop R A b tol fuel d pre res ≠ .error .exception ∧
      ∀ X, gsLoop R A b tol fuel d pre res = .ok X → InVec x X ∧ ∀ i, Sub (X i) (start i) := by
  intro fuel
  induction fuel with
  | zero =>
    intro d pre res _ _ _ h
    rcases h with h | h
    · exact absurd h.1 (lt_irrefl _)
    · refine ⟨by simp [gsLoop], fun X hX => ?_⟩
      simp only [gsLoop, Except.ok.injEq] at hX
      exact hX ▸ h
  | succ fuel ih =>
    intro d pre res hpre hxp hsub h
    by_cases hd : gsFar tol d = true
    · obtain ⟨s1, s2⟩ := gsSweep_spec R A b pre hA hb hpre x hx hxp (List.finRange n)
        (List.pairwise_lt_finRange n) res (fun i hi => absurd (List.mem_finRange i) hi)
      simp only [gsLoop, hd, if_true]
      cases hsw : gsSweep R A b pre (List.finRange n) res with
      | error e =>
        refine ⟨?_, fun X hX => by cases hX⟩
        intro he
        simp only [Except.error.injEq] at he
        subst he
        exact s1 hsw
      | ok res' =>
        obtain ⟨t1, t2, t3⟩ := s2 res' hsw
        simp only
        cases hdv : distVec (List.ofFn res') (List.ofFn pre) with
        | error e =>
          refine ⟨?_, fun X hX => by cases hX⟩
          intro he
          simp only [Except.error.injEq] at he
          subst he
          exact distVec_no_exception _ _ hdv
        | ok dd =>
          have t4 : ∀ i, Sub (res' i) (start i) := fun i s hs => hsub i s (t3 i s hs)
          exact ih (some dd) res' res' t2 t1 t4 (.inr ⟨t1, t4⟩)
    · have h' : InVec x res ∧ ∀ i, Sub (res i) (start i) := by
        rcases h with h | h
        · rw [h.2] at hd; exact absurd rfl hd
        · exact h
      simp only [gsLoop, hd]
      refine ⟨by simp, fun X hX => ?_⟩
      simp only [Bool.false_eq_true, if_false, Except.ok.injEq] at hX
      exact hX ▸ h'

/-- C38: for every rounding, size, preconditioner, tolerance and iteration limit `maxiter ≥ 0`, whatever
`np.linalg.inv` returns: a solution in the start box lies in the returned box, and then the returned box
is a subset of the start box; and if the run ends with the exception for an empty intersection, no
solution lies in the start box. -/
theorem C38_gauss_seidel (R : Rnd K) {n : ℕ} (inv : (Fin n → Fin n → K) → Except Err (Fin n → Fin n → K))
    (hinv : ∀ M, inv M ≠ .error .exception)
    (A : Fin n → Fin n → Iv K) (b : Fin n → Iv K) (x0 : Option (Fin n → Iv K)) (C : Option (Precond K n))
    (tol : K) (maxiter : ℤ) (hm : 0 ≤ maxiter)
    (hC : ∀ D, C = some (.iv D) → ∀ i j, Ordinary (D i j))
    (hA : ∀ i j, Ordinary (A i j)) (hb : ∀ i, Ordinary (b i))
    (hx0 : ∀ X, x0 = some X → ∀ i, Ordinary (X i)) (box : Fin n → Iv K)
    (hbox : box = match x0 with | none => fun _ => ⟨.classical, -1000, 1000⟩ | some X => X) :
    (∀ X, gaussSeidel R inv A b x0 C tol maxiter = .ok X → ∀ x, United A b x → InVec x box →
      InVec x X ∧ ∀ i, Sub (X i) (box i)) ∧
    (gaussSeidel R inv A b x0 C tol maxiter = .error .exception → ¬ ∃ x, United A b x ∧ InVec x box) := by
  have hbox' : box = gsStart x0 := by rw [hbox]; cases x0 <;> rfl
  have hord : ∀ i, Ordinary (box i) := by
    rw [hbox]
    cases x0 with
    | none => intro i; exact ⟨rfl, by norm_num⟩
    | some X => exact hx0 X rfl
  have key : ∀ x, United A b x → InVec x box →
      gaussSeidel R inv A b x0 C tol maxiter ≠ .error .exception ∧
      ∀ X, gaussSeidel R inv A b x0 C tol maxiter = .ok X → InVec x X ∧ ∀ i, Sub (X i) (box i) := by
    intro x hx hxb
    unfold gaussSeidel
    cases hP : gsPrecond R inv A C with
    | error e =>
      refine ⟨?_, fun X hX => by cases hX⟩
      intro he
      simp only [Except.error.injEq] at he
      subst he
      cases C with
      | some C => cases hP
      | none =>
        simp only [gsPrecond] at hP
        cases hi : inv (fun i j => (A i j).mid R) with
        | error e => rw [hi] at hP; cases hP; exact hinv _ hi
        | ok v => rw [hi] at hP; cases hP
    | ok P =>
      have hPC : ∀ D, P = .iv D → ∀ i j, Ordinary (D i j) := by
        intro D hD
        cases C with
        | some C => simp only [gsPrecond, Except.ok.injEq] at hP; exact hC D (by rw [hP, hD])
        | none =>
          simp only [gsPrecond] at hP
          cases hi : inv (fun i j => (A i j).mid R) with
          | error e => rw [hi] at hP; cases hP
          | ok v => rw [hi] at hP; subst hD; cases hP
      obtain ⟨p1, p2, p3⟩ := precond_solution R P A b hPC hA hb x hx
      simp only
      cases hB : inv (compmat (P.mulMat R A)) with
      | error e =>
        refine ⟨?_, fun X hX => by cases hX⟩
        intro he
        simp only [Except.error.injEq] at he
        subst he
        exact hinv _ hB
      | ok B =>
        simp only
        split_ifs
        · rw [← hbox']
          exact gsLoop_spec R _ _ tol p2 p3 x p1 box _ _ _ _ hord hxb (fun i s hs => hs)
            (.inl ⟨by omega, rfl⟩)
        · exact ⟨by simp, fun X hX => by cases hX⟩
  exact ⟨fun X hX x hx hxb => (key x hx hxb).2 X hX,
    fun he ⟨x, hx, hxb⟩ => (key x hx hxb).1 he⟩

/-- In exact arithmetic the intersection exceeds its first operand by at most the tolerance. -/
theorem intersect_near (X Y Z : Iv K) (h : intersect Rnd.exact X Y = some Z) :
    X.a - interTol ≤ Z.a ∧ Z.b ≤ X.b + interTol := by
  have tol : (0 : K) ≤ interTol := by unfold interTol; positivity
  unfold intersect at h
  dsimp only at h
  have es : X.a ≤ if X.a < Y.a then Y.a else X.a := by split_ifs with h; exacts [h.le, le_refl _]
  have ei : (if X.b < Y.b then X.b else Y.b) ≤ X.b := by
    split_ifs with h; exacts [le_refl _, not_lt.mp h]
  revert h es ei
  generalize (if X.a < Y.a then Y.a else X.a) = s
  generalize (if X.b < Y.b then X.b else Y.b) = i
  intro h es ei
  rw [Rnd.exact_nr, id] at h
  split_ifs at h with h1 h2
  · cases h; constructor <;> dsimp only <;> linarith
  · cases h; constructor <;> dsimp only <;> linarith

theorem gsSweep_near {n : ℕ} (A : Fin n → Fin n → Iv K) (b pre : Fin n → Iv K) (ks : List (Fin n))
    (res res' : Fin n → Iv K) (h : gsSweep Rnd.exact A b pre ks res = .ok res')
    (hres : ∀ i, i ∉ ks → (pre i).a - interTol ≤ (res i).a ∧ (res i).b ≤ (pre i).b + interTol) (i : Fin n) :
    (pre i).a - interTol ≤ (res' i).a ∧ (res' i).b ≤ (pre i).b + interTol := by
  induction ks generalizing res with
  | nil => simp only [gsSweep, Except.ok.injEq] at h; exact h ▸ hres i (by simp)
  | cons k ks ih =>
    unfold gsSweep at h
    cases hb : gsBar Rnd.exact A b res pre k with
    | error e => rw [hb] at h; cases h
    | ok bar =>
      rw [hb] at h
      dsimp only at h
      cases hi : intersect Rnd.exact (pre k) bar with
      | none => rw [hi] at h; cases h
      | some Z =>
        rw [hi] at h
        refine ih _ h fun j hj => ?_
        by_cases e : j = k
        · subst e; simpa using intersect_near _ _ _ hi
        · rw [Function.update_of_ne e]; exact hres j (by simp [e, hj])

theorem gsLoop_near {n : ℕ} (A : Fin n → Fin n → Iv K) (b : Fin n → Iv K) (tol : K) :
    ∀ (fuel : ℕ) (d : Option K) (pre res X : Fin n → Iv K),
      ((0 < fuel ∧ d = none) ∨ res = pre) → gsLoop Rnd.exact A b tol fuel d pre res = .ok X →
      ∀ i, (pre i).a - fuel * interTol ≤ (X i).a ∧ (X i).b ≤ (pre i).b + fuel * interTol := by
  have tol0 : (0 : K) ≤ interTol := by unfold interTol; positivity
  intro fuel
  induction fuel with
  | zero =>
    intro d pre res X h hX i
    rcases h with h | rfl
    · exact absurd h.1 (lt_irrefl _)
    · simp only [gsLoop, Except.ok.injEq] at hX; subst hX; simp
  | succ fuel ih =>
    intro d pre res X h hX i
    by_cases hd : gsFar tol d = true
    · simp only [gsLoop, hd, if_true] at hX
      cases hsw : gsSweep Rnd.exact A b pre (List.finRange n) res with
      | error e => rw [hsw] at hX; cases hX
      | ok res' =>
        rw [hsw] at hX
        dsimp only at hX
        cases hdv : distVec (List.ofFn res') (List.ofFn pre) with
        | error e => rw [hdv] at hX; cases hX
        | ok dd =>
          rw [hdv] at hX
          have h1 := gsSweep_near A b pre _ res res' hsw (fun j hj => absurd (List.mem_finRange j) hj) i
          have h2 := ih _ _ _ X (.inr rfl) hX i
          push_cast
          constructor <;> linarith [h1.1, h1.2, h2.1, h2.2]
    · rcases h with h | rfl
      · rw [h.2] at hd; exact absurd rfl hd
      · simp only [gsLoop, hd, Bool.false_eq_true, if_false, Except.ok.injEq] at hX
        subst hX
        have : (0 : K) ≤ ((fuel + 1 : ℕ) : K) * interTol := by positivity
        constructor <;> linarith

/-- C38: in exact arithmetic the returned box exceeds the start box by at most `1e-15` per pass, also when
there is no solution in it (with a solution it is a subset, `C38_gauss_seidel`). -/
theorem C38_near_start {n : ℕ} (inv : (Fin n → Fin n → K) → Except Err (Fin n → Fin n → K))
    (A : Fin n → Fin n → Iv K) (b : Fin n → Iv K) (box : Fin n → Iv K) (C : Option (Precond K n))
    (tol : K) (maxiter : ℕ) (X : Fin n → Iv K)
    (h : gaussSeidel Rnd.exact inv A b (some box) C tol maxiter = .ok X) (i : Fin n) :
    (box i).a - (maxiter + 1) * interTol ≤ (X i).a ∧
      (X i).b ≤ (box i).b + (maxiter + 1) * interTol := by
  unfold gaussSeidel at h
  split at h
  · cases h
  · dsimp only at h
    split at h
    · cases h
    · split_ifs at h
      have := gsLoop_near _ _ tol _ _ _ _ X (.inl ⟨by omega, rfl⟩) h i
      have e : (((maxiter : ℤ) + 1).toNat : K) = maxiter + 1 := by
        have : ((maxiter : ℤ) + 1).toNat = maxiter + 1 := by omega
        rw [this]; push_cast; ring
      rw [e] at this
      exact this

/-- C38 (no pass at all): a negative `maxiter` yields the zero vector whatever the system is, so a solution
in the start box is lost. -/
theorem C38_no_pass (R : Rnd K) {n : ℕ} (inv : (Fin n → Fin n → K) → Except Err (Fin n → Fin n → K))
    (A : Fin n → Fin n → Iv K) (b : Fin n → Iv K) (x0 : Option (Fin n → Iv K)) (C : Option (Precond K n))
    (tol : K) (maxiter : ℤ) (hm : maxiter < 0) (X : Fin n → Iv K)
    (h : gaussSeidel R inv A b x0 C tol maxiter = .ok X) (i : Fin n) : X i = ⟨.classical, 0, 0⟩ := by
  have e : (maxiter + 1).toNat = 0 := by omega
  unfold gaussSeidel at h
  split at h
  · cases h
  · dsimp only at h
    split at h
    · cases h
    · split_ifs at h
      rw [e, gsLoop, Except.ok.injEq] at h
      exact h ▸ rfl

/-! A concrete run: `[[2, [-1, 0]], [[-1, 1/2], 3]] x = (1, 2)` with the identity as preconditioner and one pass. -/

/-- The system of the example. -/
def gsA : Fin 2 → Fin 2 → Iv ℚ :=
  ![![⟨.classical, 2, 2⟩, ⟨.classical, -1, 0⟩], ![⟨.classical, -1, 1/2⟩, ⟨.classical, 3, 3⟩]]
/-- Its right-hand side. -/
def gsb : Fin 2 → Iv ℚ := ![⟨.classical, 1, 1⟩, ⟨.classical, 2, 2⟩]
/-- A stand-in for `np.linalg.inv` that returns the identity matrix. -/
def gsInv : (Fin 2 → Fin 2 → ℚ) → Except Err (Fin 2 → Fin 2 → ℚ) := fun _ => .ok fun i j => if i = j then 1 else 0
/-- The result of the run, entry by entry. -/
def gsRun (i : Fin 2) : Option (ℚ × ℚ) :=
  match gaussSeidel Rnd.exact gsInv gsA gsb (some fun _ => ⟨.classical, -4, 4⟩) none (1/10) 2 with
  | .ok X => some ((X i).a, (X i).b)
  | .error _ => none

example : gsRun 0 = some (1/2, 25/24) ∧ gsRun 1 = some (71/144, 73/72) := by decide +kernel

example : United gsA gsb ![1/2, 2/3] ∧ InVec ![1/2, 2/3] (fun _ : Fin 2 => (⟨.classical, -4, 4⟩ : Iv ℚ)) := by
  refine ⟨⟨![![2, 0], ![0, 3]], ?_, ![1, 2], ?_, ?_⟩, ?_⟩
  · intro i j; fin_cases i <;> fin_cases j <;> norm_num [gsA, Iv.mem_def]
  · intro i; fin_cases i <;> norm_num [gsb, Iv.mem_def]
  · intro i; fin_cases i <;> norm_num [apply, Fin.sum_univ_two]
  · intro i; fin_cases i <;> norm_num [Iv.mem_def]

/-! ## C37 -/

/-- C37 as stated for one rounding: `Gauss` encloses the united solution set. -/
def C37_statement (R : Rnd K) : Prop :=
  ∀ (n : ℕ) (A : Fin n → Fin n → Iv K) (b X : Fin n → Iv K), (∀ i j, Ordinary (A i j)) → (∀ i, Ordinary (b i)) →
    gauss R A b = .ok X → ∀ x, United A b x → InVec x X

/-- A point system with the solution `(1, 1, 1)`. -/
def gaussBadA : Fin 3 → Fin 3 → Iv ℚ :=
  ![![⟨.classical, 4, 4⟩, ⟨.classical, 1, 1⟩, ⟨.classical, 0, 0⟩],
    ![⟨.classical, 1, 1⟩, ⟨.classical, 4, 4⟩, ⟨.classical, 1, 1⟩],
    ![⟨.classical, 0, 0⟩, ⟨.classical, 1, 1⟩, ⟨.classical, 4, 4⟩]]
/-- Its right-hand side. -/
def gaussBadb : Fin 3 → Iv ℚ := ![⟨.classical, 5, 5⟩, ⟨.classical, 6, 6⟩, ⟨.classical, 5, 5⟩]
/-- The returned endpoints. -/
def gaussBadRun (i : Fin 3) : Option (ℚ × ℚ) :=
  match gauss Rnd.exact gaussBadA gaussBadb with
  | .ok X => some ((X i).a, (X i).b)
  | .error _ => none

/-- C37 is false: for a diagonally dominant point system with three unknowns `Gauss` returns a point vector
different from the solution (line 46 subtracts `r_l * A_jl` instead of `r_i * A_jl`). -/
theorem C37_gauss_false : ¬ C37_statement (Rnd.exact : Rnd ℚ) := by
  intro h
  have h0 : gaussBadRun 0 = some (229/228, 229/228) := by decide +kernel
  unfold gaussBadRun at h0
  split at h0
  · rename_i X hX
    have hu : United gaussBadA gaussBadb ![1, 1, 1] := by
      refine ⟨![![4, 1, 0], ![1, 4, 1], ![0, 1, 4]], ?_, ![5, 6, 5], ?_, ?_⟩
      · intro i j; fin_cases i <;> fin_cases j <;> norm_num [gaussBadA, Iv.mem_def]
      · intro i; fin_cases i <;> norm_num [gaussBadb, Iv.mem_def]
      · intro i; fin_cases i <;> norm_num [apply, Fin.sum_univ_succ]
    have h1 := h 3 gaussBadA gaussBadb X
      (by intro i j; fin_cases i <;> fin_cases j <;> norm_num [gaussBadA, Ordinary])
      (by intro i; fin_cases i <;> norm_num [gaussBadb, Ordinary]) hX ![1, 1, 1] hu 0
    simp only [Option.some.injEq, Prod.mk.injEq] at h0
    rw [Iv.mem_def, h0.1, h0.2] at h1
    norm_num at h1
  · cases h0

theorem filter_sum {n : ℕ} (f : Fin n → K) (p : Fin n → Prop) [DecidablePred p] :
    (((List.finRange n).filter fun j => p j).map f).sum = ∑ j, if p j then f j else 0 := by
  have : ∀ l : List (Fin n), ((l.filter fun j => p j).map f).sum
      = (l.map fun j => if p j then f j else 0).sum := by
    intro l
    induction l with
    | nil => rfl
    | cons a l ih => by_cases h : p a <;> simp [h, ih]
  rw [this, ← List.ofFn_eq_map, List.sum_ofFn]

/-- `x` solves a point system inside the upper triangle of `S`. -/
def TriSolved {n : ℕ} (S : GaussSt K n) (x : Fin n → K) : Prop :=
  ∃ A' : Fin n → Fin n → K, (∀ i l, i ≤ l → A' i l ∈ S.A i l) ∧ ∃ b', InVec b' S.b ∧
    ∀ i, ∑ l, (if i ≤ l then A' i l * x l else 0) = b' i

/-- Back substitution encloses the solutions of the triangular system, for every size and rounding. -/
theorem gaussBack_spec (R : Rnd K) {n : ℕ} (S : GaussSt K n) (hA : ∀ i j, Ordinary (S.A i j))
    (hb : ∀ i, Ordinary (S.b i)) (x : Fin n → K) (hx : TriSolved S x) (is : List (Fin n))
    (hs : is.Pairwise (· > ·)) (X : Fin n → Iv K) (hX : ∀ i, i ∉ is → x i ∈ X i ∧ Ordinary (X i))
    (hX0 : ∀ i ∈ is, X i = zeroIv) (Y : Fin n → Iv K) (h : gaussBack R S is X = .ok Y) : InVec x Y := by
  induction is generalizing X with
  | nil => simp only [gaussBack, Except.ok.injEq] at h; exact fun i => h ▸ (hX i (by simp)).1
  | cons i is ih =>
    obtain ⟨A', hA', b', hb', he⟩ := hx
    have hgt : ∀ j, i < j → j ∉ i :: is := by
      intro j hj hm
      rcases List.mem_cons.mp hm with e | e
      · exact (e ▸ hj).false
      · exact (hj.trans ((List.pairwise_cons.mp hs).1 j e)).false
    obtain ⟨h1, h2⟩ := subSum_encloses R (S.b i) (b' i) (hb i) (hb' i)
      ((List.finRange n).filter fun l => i ≤ l) (fun l => (S.A i l).mul R (X l))
      (fun l => A' i l * if l = i then 0 else x l) (fun l hl => by
        have hl' : i ≤ l := by simpa using (List.mem_filter.mp hl).2
        by_cases e : l = i
        · subst e
          rw [if_pos rfl, hX0 l (by simp)]
          exact mul_point R _ _ (hA l l) ordinary_zero _ _ (hA' l l hl') mem_zero
        · rw [if_neg e]
          have hlt : i < l := lt_of_le_of_ne hl' (Ne.symm e)
          exact mul_point R _ _ (hA i l) (hX l (hgt l hlt)).2 _ _ (hA' i l hl') (hX l (hgt l hlt)).1)
    have heq : A' i i * x i = b' i -
        (((List.finRange n).filter fun l => i ≤ l).map fun l => A' i l * if l = i then 0 else x l).sum := by
      rw [filter_sum, ← he i, ← Finset.sum_sub_distrib,
        Finset.sum_eq_single i (fun l _ hl => by simp [hl]) (by simp)]
      simp
    unfold gaussBack at h
    cases hd : (subSum R (S.b i) (((List.finRange n).filter fun l => i ≤ l).map fun l =>
        (S.A i l).mul R (X l))).div R (S.A i i) with
    | error e => rw [hd] at h; cases h
    | ok Z =>
      rw [hd] at h
      have hz := div_point R _ _ Z h2 (hA i i) hd _ _ (x i) h1 (hA' i i (le_refl _)) heq
      refine ih (List.pairwise_cons.mp hs).2 (Function.update X i Z) ?_ ?_ h
      · intro j hj
        by_cases e : j = i
        · subst e; simpa using hz
        · rw [Function.update_of_ne e]; exact hX j (by simp [e, hj])
      · intro j hj
        have e : j ≠ i := fun e => by
          subst e; exact ((List.pairwise_cons.mp hs).1 j hj).false
        rw [Function.update_of_ne e]
        exact hX0 j (by simp [hj])

/-- `np.argmax` returns a listed position of the largest value. -/
theorem argmaxOn_spec {ι : Type*} (f : ι → K) (l : List ι) (k : ι) (h : argmaxOn f l = some k) :
    k ∈ l ∧ ∀ i ∈ l, f i ≤ f k := by
  cases l with
  | nil => cases h
  | cons a t =>
    simp only [argmaxOn, Option.some.injEq] at h
    induction t generalizing a with
    | nil => subst h; simp
    | cons c t ih =>
      simp only [List.foldl_cons] at h
      obtain ⟨h1, h2⟩ := ih _ h
      split_ifs at h1 h2 h with hc
      · refine ⟨by simp only [List.mem_cons] at h1 ⊢; tauto, fun i hi => ?_⟩
        rcases List.mem_cons.mp hi with e | e
        · subst e; exact hc.le.trans (h2 c (by simp))
        · exact h2 i e
      · refine ⟨by simp only [List.mem_cons] at h1 ⊢; tauto, fun i hi => ?_⟩
        simp only [List.mem_cons] at hi h2
        rcases hi with e | e | e
        · exact h2 i (.inl e)
        · subst e; exact (not_lt.mp hc).trans (h2 a (.inl rfl))
        · exact h2 i (.inr e)

theorem mig_pos_not_mem (X : Iv K) (h : 0 < X.mig) : ¬ (0 : K) ∈ X := by
  intro h0
  rw [Iv.mig, if_pos (containsNum_iff.mpr h0)] at h
  exact h.false

/-- The reciprocal of a pivot with positive mignitude: it exists, is ordinary and contains the reciprocals. -/
theorem recip_pivot (R : Rnd K) (X q : Iv K) (hX : Ordinary X) (h0 : ¬ (0 : K) ∈ X)
    (h : Iv.recip R X.cls X = .ok q) : Ordinary q ∧ ∀ x ∈ X, 1 / x ∈ q := by
  obtain ⟨h1, h2⟩ := recip_encloses R X.cls X q hX.2 h0 h
  have h3 : ∀ x ∈ X, 1 / x ∈ q := fun x hx => h2 _ ⟨x, hx, rfl⟩
  have h4 := h3 X.a ⟨le_refl _, hX.2⟩
  exact ⟨⟨h1.trans hX.1, h4.1.trans h4.2⟩, h3⟩

theorem swap_ordinary {n : ℕ} (S : GaussSt K n) (hA : ∀ i j, Ordinary (S.A i j)) (hb : ∀ i, Ordinary (S.b i))
    (j k : Fin n) : (∀ i l, Ordinary ((S.swap j k).A i l)) ∧ ∀ i, Ordinary ((S.swap j k).b i) := by
  refine ⟨fun i l => ?_, fun i => hb _⟩
  simp only [GaussSt.swap]
  split_ifs
  · exact hA _ _
  · exact hA _ _

theorem eliminate_ordinary (R : Rnd K) {n : ℕ} (S : GaussSt K n) (hA : ∀ i j, Ordinary (S.A i j))
    (hb : ∀ i, Ordinary (S.b i)) (j : Fin n) (q : Iv K) (hq : Ordinary q) :
    (∀ i l, Ordinary ((S.eliminate R j q).A i l)) ∧ ∀ i, Ordinary ((S.eliminate R j q).b i) := by
  have hr : ∀ i, Ordinary ((S.A i j).mul R q) := fun i => C02_mul_ordinary R _ _ (hA i j) hq
  constructor
  · intro i l
    simp only [GaussSt.eliminate]
    split_ifs
    · exact (C01_add_sub_ordinary R _ _ (hA i l) (C02_mul_ordinary R _ _ (hr l) (hA j l))).2
    · exact hA i l
  · intro i
    simp only [GaussSt.eliminate]
    split_ifs
    · exact (C01_add_sub_ordinary R _ _ (hb i) (C02_mul_ordinary R _ _ (hr i) (hb j))).2
    · exact hb i

/-- What one successful pass of the forward loop does. -/
theorem gaussStep_spec (R : Rnd K) {n : ℕ} (S S' : GaussSt K n) (hA : ∀ i j, Ordinary (S.A i j)) (j : Fin n)
    (h : gaussStep R S j = .ok S') :
    ∃ k q, j ≤ k ∧ 0 < (S.A k j).mig ∧ (∀ i, j ≤ i → (S.A i j).mig ≤ (S.A k j).mig) ∧
      ((S.swap j k).A j j) = S.A k j ∧ Ordinary q ∧ (∀ x ∈ S.A k j, x ≠ 0 ∧ 1 / x ∈ q) ∧
      S' = (S.swap j k).eliminate R j q := by
  unfold gaussStep at h
  split at h
  · cases h
  · rename_i k hk
    obtain ⟨k1, k2⟩ := argmaxOn_spec _ _ _ hk
    have hjk : j ≤ k := by simpa using (List.mem_filter.mp k1).2
    split_ifs at h with hm
    have e : (S.swap j k).A j j = S.A k j := by simp [GaussSt.swap]
    dsimp only at h
    rw [e] at h
    cases hq : Iv.recip R (S.A k j).cls (S.A k j) with
    | error e => rw [hq] at h; cases h
    | ok q =>
      rw [hq] at h
      have h0 := mig_pos_not_mem _ hm
      obtain ⟨q1, q2⟩ := recip_pivot R _ _ (hA k j) h0 hq
      refine ⟨k, q, hjk, hm, fun i hi => k2 i (by simp [hi]), e, q1,
        fun x hx => ⟨fun hx0 => h0 (hx0 ▸ hx), q2 x hx⟩, ?_⟩
      cases h
      rfl

theorem gaussStep_ordinary (R : Rnd K) {n : ℕ} (S S' : GaussSt K n) (hA : ∀ i j, Ordinary (S.A i j))
    (hb : ∀ i, Ordinary (S.b i)) (j : Fin n) (h : gaussStep R S j = .ok S') :
    (∀ i l, Ordinary (S'.A i l)) ∧ ∀ i, Ordinary (S'.b i) := by
  obtain ⟨k, q, _, _, _, _, hq, _, rfl⟩ := gaussStep_spec R S S' hA j h
  obtain ⟨h1, h2⟩ := swap_ordinary S hA hb j k
  exact eliminate_ordinary R _ h1 h2 j q hq

/-- Back substitution after any forward phase. -/
theorem gauss_of_forward (R : Rnd K) {n : ℕ} (A : Fin n → Fin n → Iv K) (b X : Fin n → Iv K) (x : Fin n → K)
    (h : gauss R A b = .ok X)
    (hf : ∀ S, gaussForward R ((List.finRange n).filter fun j => j.val + 1 < n) ⟨A, b⟩ = .ok S →
      (∀ i j, Ordinary (S.A i j)) ∧ (∀ i, Ordinary (S.b i)) ∧ TriSolved S x) : InVec x X := by
  unfold gauss at h
  split at h
  · cases h
  · rename_i S hS
    obtain ⟨h1, h2, h3⟩ := hf S hS
    refine gaussBack_spec R S h1 h2 x h3 _ ?_ _ ?_ ?_ X h
    · rw [List.pairwise_reverse]; exact List.pairwise_lt_finRange n
    · intro i hi; exact absurd (by simp) hi
    · intro i _; rfl

/-- One pass on a system whose part below the diagonal is zero: nothing is swapped, the zero part stays zero and
every enclosed point of the upper triangle and of the right-hand side stays enclosed. -/
theorem gaussStep_tri (R : Rnd K) {n : ℕ} (S S' : GaussSt K n) (hA : ∀ i j, Ordinary (S.A i j))
    (hb : ∀ i, Ordinary (S.b i)) (hz : ∀ i l, l < i → S.A i l = zeroIv) (j : Fin n)
    (h : gaussStep R S j = .ok S') :
    (∀ i l, l < i → S'.A i l = zeroIv) ∧ (∀ i l, Sub (S.A i l) (S'.A i l)) ∧ ∀ i, Sub (S.b i) (S'.b i) := by
  obtain ⟨k, q, hjk, hm, _, _, hq, _, rfl⟩ := gaussStep_spec R S S' hA j h
  have hkj : k = j := by
    rcases hjk.eq_or_lt with e | e
    · exact e.symm
    · rw [hz k j e] at hm
      norm_num [Iv.mig, zeroIv, Iv.containsNum] at hm
  subst hkj
  have hsw : S.swap k k = S := by
    simp only [GaussSt.swap, Equiv.swap_self, Equiv.refl_apply, ite_self]
  rw [hsw]
  have zm : ∀ Y : Iv K, Ordinary Y → (zeroIv : Iv K).mul R Y = zeroIv := by
    intro Y hY
    simp [Iv.mul, zeroIv, hY.1, Iv.mulCC, R.dn_zero, R.up_zero]
  have sz : ∀ (Z : Iv K), Ordinary Z → Sub Z (Z.sub R zeroIv) := by
    intro Z hZ s hs
    have := C01_sub_encloses R Z zeroIv (s - 0) ⟨s, hs, 0, mem_zero, rfl⟩
    simpa using this
  have zz : (zeroIv : Iv K).sub R zeroIv = zeroIv := by
    simp [Iv.sub, zeroIv, R.dn_zero, R.up_zero]
  have hr : ∀ l, k < l → (S.A l k).mul R q = zeroIv := fun l hl => by rw [hz l k hl, zm q hq]
  refine ⟨fun i l hl => ?_, fun i l => ?_, fun i => ?_⟩ <;> simp only [GaussSt.eliminate]
  · split_ifs with hc
    · rw [hr l hc.2, zm _ (hA k l), hz i l hl, zz]
    · exact hz i l hl
  · split_ifs with hc
    · rw [hr l hc.2, zm _ (hA k l)]; exact sz _ (hA i l)
    · exact fun s hs => hs
  · split_ifs with hc
    · rw [hr i hc, zm _ (hb k)]; exact sz _ (hb i)
    · exact fun s hs => hs

/-- C37 (partial): for every size and rounding, the result encloses the united solution set of a system whose
matrix has only zeros below the diagonal. -/
theorem C37_gauss_triangular_partial (R : Rnd K) {n : ℕ} (A : Fin n → Fin n → Iv K) (b X : Fin n → Iv K)
    (hA : ∀ i j, Ordinary (A i j)) (hb : ∀ i, Ordinary (b i))
    (hz : ∀ i l, l < i → A i l = ⟨.classical, 0, 0⟩) (h : gauss R A b = .ok X) (x : Fin n → K)
    (hx : United A b x) : InVec x X := by
  refine gauss_of_forward R A b X x h fun S hS => ?_
  obtain ⟨A', hA', b', hb', he⟩ := hx
  have key : ∀ (js : List (Fin n)) (S0 S : GaussSt K n), (∀ i j, Ordinary (S0.A i j)) →
      (∀ i, Ordinary (S0.b i)) → (∀ i l, l < i → S0.A i l = zeroIv) → InMat A' S0.A → InVec b' S0.b →
      gaussForward R js S0 = .ok S →
      (∀ i j, Ordinary (S.A i j)) ∧ (∀ i, Ordinary (S.b i)) ∧ InMat A' S.A ∧ InVec b' S.b := by
    intro js
    induction js with
    | nil =>
      intro S0 S h1 h2 _ h4 h5 hf
      simp only [gaussForward, Except.ok.injEq] at hf
      subst hf
      exact ⟨h1, h2, h4, h5⟩
    | cons j js ih =>
      intro S0 S h1 h2 h3 h4 h5 hf
      unfold gaussForward at hf
      split at hf
      · cases hf
      · rename_i S1 hS1
        obtain ⟨o1, o2⟩ := gaussStep_ordinary R S0 S1 h1 h2 j hS1
        obtain ⟨t1, t2, t3⟩ := gaussStep_tri R S0 S1 h1 h2 h3 j hS1
        exact ih S1 S o1 o2 t1 (fun i l => t2 i l _ (h4 i l)) (fun i => t3 i _ (h5 i)) hf
  obtain ⟨k1, k2, k3, k4⟩ := key _ ⟨A, b⟩ S hA hb hz hA' hb' hS
  refine ⟨k1, k2, A', fun i l _ => k3 i l, b', k4, fun i => ?_⟩
  rw [← he i, apply]
  refine Finset.sum_congr rfl fun l _ => ?_
  split_ifs with hc
  · rfl
  · have h1 := hA' i l
    rw [hz i l (not_le.mp hc), Iv.mem_def] at h1
    rw [le_antisymm h1.2 h1.1, zero_mul]

/-- C37 (partial): for at most two unknowns `Gauss` encloses the united solution set, for every rounding.
Missing for the full statement: three and more unknowns, where it is false (`C37_gauss_false`). -/
theorem C37_gauss_partial (R : Rnd K) {n : ℕ} (hn : n ≤ 2) (A : Fin n → Fin n → Iv K) (b X : Fin n → Iv K)
    (hA : ∀ i j, Ordinary (A i j)) (hb : ∀ i, Ordinary (b i)) (h : gauss R A b = .ok X) (x : Fin n → K)
    (hx : United A b x) : InVec x X := by
  obtain ⟨A', hA', b', hb', he⟩ := hx
  refine gauss_of_forward R A b X x h fun S hS => ?_
  obtain rfl | rfl | rfl : n = 0 ∨ n = 1 ∨ n = 2 := by omega
  · exact ⟨fun i => i.elim0, fun i => i.elim0, A', fun i => i.elim0, b', fun i => i.elim0, fun i => i.elim0⟩
  · have hl : ((List.finRange 1).filter fun j => j.val + 1 < 1) = [] := by decide
    rw [hl] at hS
    cases hS
    refine ⟨hA, hb, A', fun i l _ => hA' i l, b', hb', fun i => ?_⟩
    rw [← he i, apply]
    fin_cases i
    simp
  · have hl : ((List.finRange 2).filter fun j => j.val + 1 < 2) = [0] := by decide
    rw [hl] at hS
    unfold gaussForward at hS
    split at hS
    · cases hS
    · rename_i S1 hS1
      simp only [gaussForward, Except.ok.injEq] at hS
      subst hS
      obtain ⟨o1, o2⟩ := gaussStep_ordinary R ⟨A, b⟩ S1 hA hb 0 hS1
      refine ⟨o1, o2, ?_⟩
      obtain ⟨k, q, _, _, _, hp, hq, hq', rfl⟩ := gaussStep_spec R ⟨A, b⟩ S1 hA 0 hS1
      obtain ⟨s1, s2⟩ := swap_ordinary ⟨A, b⟩ hA hb 0 k
      obtain ⟨hne, hinv⟩ := hq' (A' k 0) (hA' k 0)
      set σ := Equiv.swap (0 : Fin 2) k with hσ
      have hσ0 : σ 0 = k := Equiv.swap_apply_left _ _
      have mA : ∀ i l, A' (σ i) l ∈ (GaussSt.swap ⟨A, b⟩ 0 k).A i l := by
        intro i l; simp only [GaussSt.swap, Fin.zero_le, if_true]; exact hA' _ _
      have mb : ∀ i, b' (σ i) ∈ (GaussSt.swap ⟨A, b⟩ 0 k).b i := fun i => hb' _
      have mr : A' (σ 1) 0 * (1 / A' k 0) ∈ ((GaussSt.swap ⟨A, b⟩ 0 k).A 1 0).mul R q ∧
          Ordinary (((GaussSt.swap ⟨A, b⟩ 0 k).A 1 0).mul R q) :=
        (mul_point R _ _ (s1 1 0) hq _ _ (mA 1 0) hinv).symm
      refine ⟨fun i l => if i = 0 then A' k l else A' (σ 1) l - A' (σ 1) 0 * (1 / A' k 0) * A' k l, ?_,
        fun i => if i = 0 then b' k else b' (σ 1) - A' (σ 1) 0 * (1 / A' k 0) * b' k, ?_, ?_⟩
      · intro i l hil
        fin_cases i
        · simp only [GaussSt.eliminate, Fin.zero_eta, if_true, Fin.not_lt_zero, false_and, if_false]
          have := mA 0 l
          rwa [hσ0] at this
        · have hl1 : l = 1 := by
            fin_cases l
            · exact absurd hil (by decide)
            · rfl
          subst hl1
          have h01 : (0 : Fin 2) < 1 ∧ (0 : Fin 2) < 1 := ⟨by decide, by decide⟩
          simp only [GaussSt.eliminate, Fin.mk_one, if_pos h01, Fin.one_eq_zero_iff, OfNat.ofNat_ne_one,
            if_false]
          have h2 := mul_point R _ _ mr.2 (s1 0 1) _ _ mr.1 (mA 0 1)
          rw [hσ0] at h2
          exact C01_sub_encloses R _ _ _ ⟨_, mA 1 1, _, h2.2, rfl⟩
      · intro i
        fin_cases i
        · simp only [GaussSt.eliminate, Fin.zero_eta, if_true, Fin.not_lt_zero, if_false]
          have := mb 0
          rwa [hσ0] at this
        · have h01 : (0 : Fin 2) < 1 := by decide
          simp only [GaussSt.eliminate, Fin.mk_one, if_pos h01, Fin.one_eq_zero_iff, OfNat.ofNat_ne_one,
            if_false]
          have h2 := mul_point R _ _ mr.2 (s2 0) _ _ mr.1 (mb 0)
          rw [hσ0] at h2
          exact C01_sub_encloses R _ _ _ ⟨_, mb 1, _, h2.2, rfl⟩
      · intro i
        have e1 := he k
        have e2 := he (σ 1)
        simp only [apply, Fin.sum_univ_two] at e1 e2
        fin_cases i
        · simpa [Fin.sum_univ_two] using e1
        · have n1 : ¬ (1 : Fin 2) ≤ 0 := by decide
          simp only [Fin.sum_univ_two, Fin.mk_one, n1, if_false, le_refl, if_true, Fin.one_eq_zero_iff,
            OfNat.ofNat_ne_one, zero_add]
          rw [← e1, ← e2]
          field_simp
          ring

/-- C37: whatever the size, when `Gauss` returns, all components are ordinary intervals. -/
theorem C37_gauss_ordinary (R : Rnd K) {n : ℕ} (A : Fin n → Fin n → Iv K) (b X : Fin n → Iv K)
    (hA : ∀ i j, Ordinary (A i j)) (hb : ∀ i, Ordinary (b i)) (h : gauss R A b = .ok X) : ∀ i, Ordinary (X i) := by
  have forward : ∀ (js : List (Fin n)) (S S' : GaussSt K n), (∀ i j, Ordinary (S.A i j)) → (∀ i, Ordinary (S.b i)) →
      gaussForward R js S = .ok S' → (∀ i j, Ordinary (S'.A i j)) ∧ ∀ i, Ordinary (S'.b i) := by
    intro js
    induction js with
    | nil =>
      intro S S' h1 h2 h
      cases h
      exact ⟨h1, h2⟩
    | cons j js ih =>
      intro S S' h1 h2 h
      unfold gaussForward at h
      split at h
      · cases h
      · rename_i S1 hS1
        obtain ⟨h3, h4⟩ := gaussStep_ordinary R S S1 h1 h2 j hS1
        exact ih S1 S' h3 h4 h
  have back : ∀ (S : GaussSt K n), (∀ i j, Ordinary (S.A i j)) → (∀ i, Ordinary (S.b i)) → ∀ (is : List (Fin n))
      (x y : Fin n → Iv K), (∀ i, Ordinary (x i)) → gaussBack R S is x = .ok y → ∀ i, Ordinary (y i) := by
    intro S h1 h2 is
    induction is with
    | nil =>
      intro x y hx h
      cases h
      exact hx
    | cons i is ih =>
      intro x y hx h
      unfold gaussBack at h
      split at h
      · cases h
      · rename_i Z hZ
        have hs := (subSum_encloses R (S.b i) (S.b i).a (h2 i) ⟨le_refl _, (h2 i).2⟩
          ((List.finRange n).filter fun l => i ≤ l) (fun l => (S.A i l).mul R (x l))
          (fun l => ((S.A i l).mul R (x l)).a) fun l _ =>
            ⟨C02_mul_ordinary R _ _ (h1 i l) (hx l), le_refl _, (C02_mul_ordinary R _ _ (h1 i l) (hx l)).2⟩).2
        refine ih _ y (fun j => ?_) h
        by_cases e : j = i
        · subst e
          rw [Function.update_self]
          have h0 : ¬ (0 : K) ∈ S.A j j := fun h0 => by
            rw [((C03_div_error_iff R _ _ hs (h1 j j)).1).mpr h0] at hZ
            cases hZ
          obtain ⟨Z', h3, h4⟩ := ((C03_div_error_iff R _ _ hs (h1 j j)).2).mpr h0
          rw [hZ] at h3
          cases h3
          exact h4
        · rw [Function.update_of_ne e]
          exact hx j
  unfold gauss at h
  split at h
  · cases h
  · rename_i S hS
    obtain ⟨h1, h2⟩ := forward _ _ _ hA hb hS
    exact back S h1 h2 _ _ _ (fun _ => ordinary_zero) h

/-- The system of the documentation, `[[2,4],[-2,1]; [-1,2],[2,4]] x = ([-2,2],[-2,2])`. -/
def barthA : Fin 2 → Fin 2 → Iv ℚ :=
  ![![⟨.classical, 2, 4⟩, ⟨.classical, -2, 1⟩], ![⟨.classical, -1, 2⟩, ⟨.classical, 2, 4⟩]]
/-- Its right-hand side. -/
def barthb : Fin 2 → Iv ℚ := ![⟨.classical, -2, 2⟩, ⟨.classical, -2, 2⟩]
/-- The returned endpoints. -/
def barthRun (i : Fin 2) : Option (ℚ × ℚ) :=
  match gauss Rnd.exact barthA barthb with
  | .ok X => some ((X i).a, (X i).b)
  | .error _ => none

example : barthRun 0 = some (-5, 5) ∧ barthRun 1 = some (-4, 4) := by decide +kernel

example : United barthA barthb ![-3, 4] := by
  refine ⟨![![2, 1], ![2, 2]], ?_, ![-2, 2], ?_, ?_⟩
  · intro i j; fin_cases i <;> fin_cases j <;> norm_num [barthA, Iv.mem_def]
  · intro i; fin_cases i <;> norm_num [barthb, Iv.mem_def]
  · intro i; fin_cases i <;> norm_num [apply, Fin.sum_univ_two]

/-! ## C72: an interval array divided by an interval -/

/-- C72 as stated: every element is divided, and a divisor containing zero is rejected. -/
def C72_statement (R : Rnd K) : Prop :=
  ∀ X Y : Iv K, Ordinary X → Ordinary Y →
    ((0 : K) ∈ Y → arrDivIv R X Y = .error .valueError) ∧
    (¬ (0 : K) ∈ Y → ∃ Z, arrDivIv R X Y = .ok Z ∧ Encloses Z (fun s => ∃ x ∈ X, ∃ y ∈ Y, s = x / y))

/-- C72 is false: `ArrayInterval([[1, 1]]) / [-1, 2]` returns the element `[-1, 1/2]` although the divisor contains
zero, and this does not contain the quotient `1 / (1/4)`. -/
theorem C72_array_division_false : ¬ C72_statement (Rnd.exact : Rnd ℚ) ∧
    arrDivIv Rnd.exact (⟨.classical, 1, 1⟩ : Iv ℚ) ⟨.classical, -1, 2⟩ = .ok ⟨.classical, -1, 1/2⟩ := by
  have h1 : arrDivIv Rnd.exact (⟨.classical, 1, 1⟩ : Iv ℚ) ⟨.classical, -1, 2⟩ = .ok ⟨.classical, -1, 1/2⟩ := by
    norm_num [arrDivIv, Iv.recip, Iv.mul, Iv.mulCC, Except.map]
  refine ⟨fun h => ?_, h1⟩
  have := (h ⟨.classical, 1, 1⟩ ⟨.classical, -1, 2⟩ ⟨rfl, le_refl _⟩ ⟨rfl, by norm_num⟩).1
    (by norm_num [Iv.mem_def])
  rw [h1] at this
  cases this

/-- C72 (partial): for every rounding, when the divisor does not contain zero the division succeeds and encloses
every quotient; a divisor with a zero endpoint raises `ZeroDivisionError`.  Missing: divisors with zero in
the interior (accepted, see `C72_array_division_false`). -/
theorem C72_array_division_partial (R : Rnd K) (X Y : Iv K) (hX : Ordinary X) (hY : Ordinary Y) :
    (¬ (0 : K) ∈ Y → ∃ Z, arrDivIv R X Y = .ok Z ∧ Ordinary Z ∧
      Encloses Z (fun s => ∃ x ∈ X, ∃ y ∈ Y, s = x / y)) ∧
    (Y.a = 0 ∨ Y.b = 0 → arrDivIv R X Y = .error .zeroDivisionError) := by
  constructor
  · intro h0
    have ha : Y.a ≠ 0 := fun e => h0 ⟨e.le, e ▸ hY.2⟩
    have hb : Y.b ≠ 0 := fun e => h0 ⟨e ▸ hY.2, e.ge⟩
    have hq : Iv.recip R Y.cls Y = .ok ⟨Y.cls, R.dn (1 / Y.b), R.up (1 / Y.a)⟩ := by
      rw [Iv.recip, if_neg hb, if_neg ha]
    obtain ⟨q1, q2⟩ := recip_pivot R Y _ hY h0 hq
    refine ⟨_, by rw [arrDivIv, hq]; rfl, C02_mul_ordinary R _ _ hX q1, ?_⟩
    rintro s ⟨x, hx, y, hy, rfl⟩
    have := (mul_point R _ _ hX q1 _ _ hx (q2 y hy)).2
    rwa [mul_one_div] at this
  · intro h
    unfold arrDivIv Iv.recip
    by_cases hb : Y.b = 0
    · rw [if_pos hb]; rfl
    · rw [if_neg hb, if_pos (h.resolve_right hb)]; rfl

example : arrDivIv (Rnd.grid 10 (by norm_num)) (⟨.classical, 1, 2⟩ : Iv ℚ) ⟨.classical, 3, 7⟩ =
    .ok ⟨.classical, 1/10, 8/10⟩ := by
  have h1 : ⌊(10 / 7 : ℚ)⌋ = 1 := by norm_num [Int.floor_eq_iff]
  have h2 : ⌈(10 / 3 : ℚ)⌉ = 4 := by norm_num [Int.ceil_eq_iff]
  norm_num [arrDivIv, Iv.recip, Iv.mul, Iv.mulCC, Except.map, Rnd.grid, h1, h2]
