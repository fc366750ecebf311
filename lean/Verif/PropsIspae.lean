import Verif.ModelModels
import Verif.PropsRecFun
import Verif.PropsPSS
import Mathlib.Analysis.Calculus.LocalExtr.Basic
import Mathlib.Analysis.Calculus.MeanValue
import Mathlib.Analysis.Calculus.Deriv.Polynomial
import Mathlib.Topology.Order.Compact
import Mathlib.Topology.Algebra.Polynomial
import Mathlib.Algebra.Polynomial.Roots

/-!
# Polynomial regression ISPAE: ranges and gradients (C54, C78)
-/

set_option autoImplicit false
set_option linter.unusedSectionVars false

namespace IntvalPy
open Spec

variable {K : Type*} [Field K] [LinearOrder K] [IsStrictOrderedRing K] {m n : ℕ}

/-! ## One column -/

theorem foldl_max_spec (xs : List K) (x : K) :
    xs.foldl max x ∈ x :: xs ∧ ∀ y ∈ x :: xs, y ≤ xs.foldl max x := by
  induction xs generalizing x with
  | nil => simp
  | cons z zs ih =>
    obtain ⟨h1, h2⟩ := ih (max x z)
    refine ⟨?_, ?_⟩
    · rcases List.mem_cons.1 h1 with h | h
      · rw [List.foldl_cons, h]
        rcases max_choice x z with e | e <;> rw [e] <;> simp
      · simp [h]
    · intro y hy
      rw [List.foldl_cons]
      rcases List.mem_cons.1 hy with rfl | hy
      · exact (le_max_left y z).trans (h2 _ (by simp))
      · rcases List.mem_cons.1 hy with rfl | hy
        · exact (le_max_right x y).trans (h2 _ (by simp))
        · exact h2 _ (by simp [hy])

theorem colPoints_eq (roots : List K) (x : Iv K) (hx : x.a ≤ x.b) :
    colPoints roots x = x.a :: x.b :: roots.filter fun t => x.a ≤ t ∧ t ≤ x.b := by
  simp [colPoints, List.filter_cons, hx]

theorem colValue_eq (p : K → K) (roots : List K) (x : Iv K) (hx : x.a ≤ x.b) :
    colValue p roots x = .ok (rangeOf p roots x) := by
  rw [colValue, colPoints_eq roots x hx]
  rfl

/-- The computed interval is ordinary, its endpoints are values of the polynomial on the input, and it contains the
values at every point evaluated. -/
theorem rangeOf_spec (p : K → K) (roots : List K) (x : Iv K) (hx : x.a ≤ x.b) :
    Ordinary (rangeOf p roots x) ∧ (∃ t ∈ x, (rangeOf p roots x).a = p t) ∧ (∃ t ∈ x, (rangeOf p roots x).b = p t) ∧
    ∀ t ∈ x, (t = x.a ∨ t = x.b ∨ t ∈ roots) → p t ∈ rangeOf p roots x := by
  set vs := (x.b :: roots.filter fun t => x.a ≤ t ∧ t ≤ x.b).map p with hvs
  obtain ⟨h1, h2⟩ := foldl_min_spec vs (p x.a)
  obtain ⟨h3, h4⟩ := foldl_max_spec vs (p x.a)
  have hle : vs.foldl min (p x.a) ≤ vs.foldl max (p x.a) := (h2 _ (by simp)).trans (h4 (p x.a) (by simp))
  have e : rangeOf p roots x = ⟨.classical, vs.foldl min (p x.a), vs.foldl max (p x.a)⟩ := by
    rw [rangeOf, ← hvs, mkIv, if_pos hle]
  have pts : ∀ v ∈ p x.a :: vs, ∃ t ∈ x, v = p t := by
    intro v hv
    rcases List.mem_cons.1 hv with rfl | hv
    · exact ⟨x.a, ⟨le_rfl, hx⟩, rfl⟩
    · rw [hvs] at hv
      obtain ⟨t, ht, rfl⟩ := List.mem_map.1 hv
      rcases List.mem_cons.1 ht with rfl | ht
      · exact ⟨x.b, ⟨hx, le_rfl⟩, rfl⟩
      · have := (List.mem_filter.1 ht).2
        exact ⟨t, Iv.mem_def.2 (by simpa using this), rfl⟩
  rw [e]
  refine ⟨⟨rfl, hle⟩, pts _ h1, pts _ h3, fun t ht hc => ?_⟩
  have hmem : p t ∈ p x.a :: vs := by
    rcases hc with rfl | rfl | h
    · simp
    · simp [hvs]
    · rw [hvs]
      refine List.mem_cons_of_mem _ (List.mem_map.2 ⟨t, List.mem_cons_of_mem _ (List.mem_filter.2 ⟨h, ?_⟩), rfl⟩)
      simpa using Iv.mem_def.1 ht
  exact ⟨h2 _ hmem, h4 _ hmem⟩

/-- The set of values of a function on an interval. -/
def ValuesOn (p : K → K) (x : Iv K) (v : K) : Prop := ∃ t ∈ x, v = p t

open Polynomial in
/-- The stationary points are found: every zero of the derivative is in the list, for polynomials that are not constant. -/
def RootsOK (roots : (ℝ → ℝ) → List ℝ) : Prop :=
  ∀ P : ℝ[X], derivative P ≠ 0 → ∀ t, (derivative P).eval t = 0 → t ∈ roots fun s => P.eval s

open Polynomial in
theorem rootsOK_exists : ∃ roots, RootsOK roots := by
  classical
  refine ⟨fun p => if h : ∃ P : ℝ[X], p = fun s => P.eval s then (derivative h.choose).roots.toList else [], ?_⟩
  intro P hP t ht
  have h : ∃ Q : ℝ[X], (fun s => P.eval s) = fun s => Q.eval s := ⟨P, rfl⟩
  dsimp only
  rw [dif_pos h]
  have e : h.choose = P := by
    have := h.choose_spec
    exact (Polynomial.funext fun s => congrFun this s).symm
  rw [e, Multiset.mem_toList, Polynomial.mem_roots hP]
  exact ht

open Polynomial in
theorem rangeOf_exact (roots : (ℝ → ℝ) → List ℝ) (hr : RootsOK roots) (P : ℝ[X]) (x : Iv ℝ) (hx : x.a ≤ x.b) :
    IsRange (rangeOf (fun s => P.eval s) (roots fun s => P.eval s) x) (ValuesOn (fun s => P.eval s) x) := by
  obtain ⟨h1, h2, h3, h4⟩ := rangeOf_spec (fun s => P.eval s) (roots fun s => P.eval s) x hx
  refine ⟨?_, h2, h3⟩
  -- a point where an extremum is attained is one of the points evaluated
  have crit : ∀ t ∈ x, IsExtrOn (fun s => P.eval s) (Set.Icc x.a x.b) t →
      P.eval t ∈ rangeOf (fun s => P.eval s) (roots fun s => P.eval s) x := by
    intro t ht hext
    by_cases hd : derivative P = 0
    · have hc : ∀ s, P.eval s = P.eval x.a := by
        have : P = C (P.coeff 0) := Polynomial.eq_C_of_derivative_eq_zero hd
        intro s
        rw [this]
        simp
      rw [hc t]
      exact h4 x.a ⟨le_rfl, hx⟩ (Or.inl rfl)
    · rcases eq_or_lt_of_le ht.1 with e | l
      · exact h4 t ht (Or.inl e.symm)
      rcases eq_or_lt_of_le ht.2 with e | u
      · exact h4 t ht (Or.inr (Or.inl e))
      refine h4 t ht (Or.inr (Or.inr (hr P hd t ?_)))
      have hl : IsLocalExtr (fun s => P.eval s) t := hext.isLocalExtr (Icc_mem_nhds l u)
      have := hl.deriv_eq_zero
      rwa [Polynomial.deriv] at this
  rintro v ⟨t, ht, rfl⟩
  have hcont : ContinuousOn (fun s => P.eval s) (Set.Icc x.a x.b) := P.continuous.continuousOn
  obtain ⟨u, hu, humin⟩ := isCompact_Icc.exists_isMinOn ⟨x.a, le_rfl, hx⟩ hcont
  obtain ⟨w, hw, hwmax⟩ := isCompact_Icc.exists_isMaxOn ⟨x.a, le_rfl, hx⟩ hcont
  have hu' := crit u hu (Or.inl humin)
  have hw' := crit w hw (Or.inr hwmax)
  exact ⟨hu'.1.trans (humin (show t ∈ Set.Icc x.a x.b from ht)), (hwmax (show t ∈ Set.Icc x.a x.b from ht)).trans hw'.2⟩

open Polynomial in
/-- C54, one column: for an ordered input the interval is exactly the range of the polynomial on it, and an improper
input raises `ValueError`. -/
theorem C54_column (roots : (ℝ → ℝ) → List ℝ) (hr : RootsOK roots) (P : ℝ[X]) (x : Iv ℝ) :
    (x.a ≤ x.b → ∃ V, colValue (fun s => P.eval s) (roots fun s => P.eval s) x = .ok V ∧ Ordinary V ∧
      IsRange V (ValuesOn (fun s => P.eval s) x)) ∧
    (x.b < x.a → colValue (fun s => P.eval s) (roots fun s => P.eval s) x = .error .valueError) := by
  constructor
  · intro hx
    exact ⟨_, colValue_eq _ _ x hx, (rangeOf_spec _ _ x hx).1, rangeOf_exact roots hr P x hx⟩
  · intro hx
    have : colPoints (roots fun s => P.eval s) x = [] := by
      rw [colPoints, List.filter_eq_nil_iff]
      intro t _
      simp only [decide_eq_true_eq, not_and, not_le]
      intro h
      exact hx.trans_le h
    rw [colValue, this]
    rfl

/-- With the stationary point 0 of `t ↦ t^2` the range of `[-1, 2]` is `[0, 4]`; without it the value 0 would be lost. -/
example : colValue (fun t : ℚ => t ^ 2) [0] ⟨.classical, -1, 2⟩ = .ok ⟨.classical, 0, 4⟩ ∧
    colValue (fun t : ℚ => t ^ 2) [] ⟨.classical, -1, 2⟩ = .ok ⟨.classical, 1, 4⟩ ∧
    colValue (fun t : ℚ => t ^ 2) [0] ⟨.kaucher, 2, -1⟩ = .error .valueError := by
  refine ⟨by decide +kernel, by decide +kernel, by decide +kernel⟩

/-! ## Several columns -/

theorem ivSum_encloses (R : Rnd K) (Vs : List (Iv K)) (vs : List K) (hne : Vs ≠ [])
    (h : List.Forall₂ (fun (v : K) (V : Iv K) => v ∈ V ∧ Ordinary V) vs Vs) :
    ∃ V, ivSum R Vs = some V ∧ Ordinary V ∧ vs.sum ∈ V := by
  cases h with
  | nil => exact absurd rfl hne
  | cons h0 hs =>
    rename_i v V vs Vs
    have hz := (C05_radd_rsub_enclose R 0 V).1 _ ⟨v, h0.1, rfl⟩
    have hO : Ordinary (Iv.radd R 0 V) := by
      refine ⟨?_, ?_⟩
      · simp [Iv.radd, h0.2.1]
      · have := (C05_radd_rsub_enclose R 0 V).1 _ ⟨v, h0.1, rfl⟩
        exact this.1.trans this.2
    have := foldl_add_encloses R Vs vs (Iv.radd R 0 V) (0 + v) hs hz hO
    exact ⟨_, rfl, this.2, by simpa using this.1⟩

theorem ivSum_exact (Vs : List (Iv K)) (hne : Vs ≠ []) (h : ∀ V ∈ Vs, Ordinary V) :
    ∃ V, ivSum Rnd.exact Vs = some V ∧ Ordinary V ∧ V.a = (Vs.map Iv.a).sum ∧ V.b = (Vs.map Iv.b).sum := by
  obtain ⟨V, h1, h2, _⟩ := ivSum_encloses Rnd.exact Vs (Vs.map Iv.a) hne (by
    rw [List.forall₂_map_left_iff, List.forall₂_same]
    exact fun V hV => ⟨⟨le_rfl, (h V hV).2⟩, h V hV⟩)
  refine ⟨V, h1, h2, ?_⟩
  cases Vs with
  | nil => exact absurd rfl hne
  | cons W Ws =>
    simp only [ivSum, Option.some.injEq] at h1
    have hW := h W (by simp)
    have hO : Ordinary (Iv.radd Rnd.exact 0 W) := by
      refine ⟨by simp [Iv.radd, hW.1], ?_⟩
      simp only [Iv.radd, hW.1, Rnd.exact_dn, Rnd.exact_up, id]
      linarith [hW.2]
    have := foldl_add_exact Ws (Iv.radd Rnd.exact 0 W) hO fun V hV => h V (by simp [hV])
    rw [h1] at this
    rw [this.1, this.2]
    simp [Iv.radd, hW.1]

/-- The values of the fitted model on a box of inputs. -/
def ModelValues {C : ℕ} (basis : ℕ → K → K) {order : Fin C → ℕ} (beta : Coeffs K order) (x : Fin C → Iv K) (v : K) : Prop :=
  ∃ t : Fin C → K, (∀ c, t c ∈ x c) ∧ v = ∑ c, ∑ d : Fin (order c), beta c d * basis (d + 1) (t c)

theorem colValues_eq {C : ℕ} (basis : ℕ → K → K) (roots : (K → K) → List K) (order : Fin C → ℕ) (beta : Coeffs K order)
    (x : Fin C → Iv K) (hx : ∀ c, (x c).a ≤ (x c).b) (cs : List (Fin C)) :
    colValues basis roots order beta x cs =
      .ok (cs.map fun c => rangeOf (colPoly basis (beta c)) (roots (colPoly basis (beta c))) (x c)) := by
  induction cs with
  | nil => rfl
  | cons c cs ih =>
    rw [colValues, colValue_eq _ _ _ (hx c)]
    dsimp only
    rw [ih]
    rfl

/-- The columns of the value are exact ranges. -/
def ColumnsExact {C : ℕ} (basis : ℕ → K → K) (roots : (K → K) → List K) {order : Fin C → ℕ} (beta : Coeffs K order)
    (x : Fin C → Iv K) : Prop :=
  ∀ c, IsRange (rangeOf (colPoly basis (beta c)) (roots (colPoly basis (beta c))) (x c))
    (ValuesOn (colPoly basis (beta c)) (x c))

theorem ispaeVal_range {C : ℕ} (hC : 0 < C) (basis : ℕ → K → K) (roots : (K → K) → List K) (order : Fin C → ℕ)
    (beta : Coeffs K order) (x : Fin C → Iv K) (hx : ∀ c, (x c).a ≤ (x c).b)
    (he : ColumnsExact basis roots beta x) :
    ispaeValue Rnd.exact basis roots order beta x = .ok (ispaeVal basis roots order beta x) ∧
    Ordinary (ispaeVal basis roots order beta x) ∧
    IsRange (ispaeVal basis roots order beta x) (ModelValues basis beta x) := by
  set V : Fin C → Iv K := fun c => rangeOf (colPoly basis (beta c)) (roots (colPoly basis (beta c))) (x c) with hV
  have hO : ∀ c, Ordinary (V c) := fun c => (rangeOf_spec _ _ _ (hx c)).1
  have hne : (List.finRange C).map V ≠ [] := by
    intro h
    have := congrArg List.length h
    simp at this
    omega
  obtain ⟨W, h1, h2, h3, h4⟩ := ivSum_exact ((List.finRange C).map V) hne (by
    intro U hU
    obtain ⟨c, _, rfl⟩ := List.mem_map.1 hU
    exact hO c)
  have eW : ispaeVal basis roots order beta x = W := by
    rw [ispaeVal, ← hV, h1]
    rfl
  have ea : W.a = ∑ c, (V c).a := by
    rw [h3, List.map_map, ← List.ofFn_eq_map, List.sum_ofFn]; rfl
  have eb : W.b = ∑ c, (V c).b := by
    rw [h4, List.map_map, ← List.ofFn_eq_map, List.sum_ofFn]; rfl
  refine ⟨?_, ?_, ?_⟩
  · rw [ispaeValue, colValues_eq basis roots order beta x hx]
    dsimp only
    rw [← hV, h1, eW]
  · rw [eW]; exact h2
  · rw [eW]
    refine ⟨?_, ?_, ?_⟩
    · rintro v ⟨t, ht, rfl⟩
      have := fun c => (he c).1 _ ⟨t c, ht c, rfl⟩
      exact ⟨by rw [ea]; exact Finset.sum_le_sum fun c _ => (this c).1,
        by rw [eb]; exact Finset.sum_le_sum fun c _ => (this c).2⟩
    · choose t ht e using fun c => (he c).2.1
      refine ⟨t, ht, ?_⟩
      rw [ea]
      exact Finset.sum_congr rfl fun c _ => e c
    · choose t ht e using fun c => (he c).2.2
      refine ⟨t, ht, ?_⟩
      rw [eb]
      exact Finset.sum_congr rfl fun c _ => e c

open Polynomial in
theorem columnsExact_real {C : ℕ} (B : ℕ → ℝ[X]) (roots : (ℝ → ℝ) → List ℝ) (hr : RootsOK roots) {order : Fin C → ℕ}
    (beta : Coeffs ℝ order) (x : Fin C → Iv ℝ) (hx : ∀ c, (x c).a ≤ (x c).b) :
    ColumnsExact (fun d t => (B d).eval t) roots beta x := by
  intro c
  have e : colPoly (fun d t => (B d).eval t) (beta c) =
      fun t => (∑ d : Fin (order c), Polynomial.C (beta c d) * B (d + 1)).eval t := by
    funext t
    rw [colPoly, Polynomial.eval_finset_sum]
    simp
  rw [e]
  exact rangeOf_exact roots hr _ _ (hx c)

open Polynomial in
/-- C54, the value of the model: in exact arithmetic it is the exact range over the box of inputs of the sum of the
polynomials of the columns, for every polynomial basis. -/
theorem C54_value {C : ℕ} (hC : 0 < C) (B : ℕ → ℝ[X]) (roots : (ℝ → ℝ) → List ℝ) (hr : RootsOK roots)
    (order : Fin C → ℕ) (beta : Coeffs ℝ order) (x : Fin C → Iv ℝ) (hx : ∀ c, (x c).a ≤ (x c).b) :
    ∃ V, ispaeValue Rnd.exact (fun d t => (B d).eval t) roots order beta x = .ok V ∧ Ordinary V ∧
      IsRange V (ModelValues (fun d t => (B d).eval t) beta x) :=
  ⟨_, ispaeVal_range hC _ roots order beta x hx (columnsExact_real B roots hr beta x hx)⟩

/-! ## Prediction -/

theorem expandCol_eq (basis : ℕ → K → K) (roots : (K → K) → List K) (x : Iv K) (hx : x.a ≤ x.b) (ds : List ℕ) :
    expandCol basis roots x ds =
      .ok (ds.map fun d => rangeOf (fun t => 1 * basis d t) (roots fun t => 1 * basis d t) x) := by
  induction ds with
  | nil => rfl
  | cons d ds ih =>
    rw [expandCol, colValue_eq _ _ _ hx]
    dsimp only
    rw [ih]
    rfl

theorem expandRow_eq {C : ℕ} (basis : ℕ → K → K) (roots : (K → K) → List K) (order : Fin C → ℕ) (x : Fin C → Iv K)
    (hx : ∀ c, (x c).a ≤ (x c).b) (cs : List (Fin C)) :
    expandRow basis roots order x cs = .ok (cs.flatMap fun c => List.ofFn fun d => expanded basis roots order x c d) := by
  induction cs with
  | nil => rfl
  | cons c cs ih =>
    rw [expandRow, expandCol_eq basis roots _ (hx c)]
    dsimp only
    rw [ih]
    simp only [Except.map, List.flatMap_cons, Except.ok.injEq, List.append_cancel_right_eq]
    refine List.ext_getElem (by simp) fun i h1 h2 => ?_
    simp [expanded]

theorem zip_flat {C : ℕ} (order : Fin C → ℕ) (u v : Coeffs K order) (cs : List (Fin C)) :
    (List.zipWith (· * ·) (cs.flatMap fun c => List.ofFn (u c)) (cs.flatMap fun c => List.ofFn (v c))).sum =
      (cs.map fun c => ∑ d, u c d * v c d).sum := by
  induction cs with
  | nil => rfl
  | cons c cs ih =>
    rw [List.flatMap_cons, List.flatMap_cons, List.zipWith_append (by simp), List.sum_append, ih, zipWith_ofFn,
      List.sum_ofFn]
    rfl

theorem forall₂_flat {C : ℕ} {α β : Type*} (order : Fin C → ℕ) (P : α → β → Prop) (u : (c : Fin C) → Fin (order c) → α)
    (v : (c : Fin C) → Fin (order c) → β) (h : ∀ c d, P (u c d) (v c d)) (cs : List (Fin C)) :
    List.Forall₂ P (cs.flatMap fun c => List.ofFn (u c)) (cs.flatMap fun c => List.ofFn (v c)) := by
  induction cs with
  | nil => exact List.Forall₂.nil
  | cons c cs ih =>
    rw [List.flatMap_cons, List.flatMap_cons]
    exact List.rel_append (forall₂_ofFn (h c)) ih

/-- The prediction encloses the values of the model if the expanded data enclose the values of the basis, for every
rounding. -/
theorem predict_encloses (R : Rnd K) {C : ℕ} (basis : ℕ → K → K) (roots : (K → K) → List K) (order : Fin C → ℕ)
    (beta : Coeffs K order) (x : Fin C → Iv K) (hx : ∀ c, (x c).a ≤ (x c).b) (hC : ∃ c, 0 < order c)
    (he : ∀ c (d : Fin (order c)), Encloses (expanded basis roots order x c d) (ValuesOn (basis (d + 1)) (x c))) :
    ∃ V, ispaePredict R basis roots order beta x = .ok V ∧ Ordinary V ∧ Encloses V (ModelValues basis beta x) := by
  have key : ∀ t : Fin C → K, (∀ c, t c ∈ x c) → ∃ V,
      dotIN R ((List.finRange C).flatMap fun c => List.ofFn fun d => expanded basis roots order x c d)
        (flatCoeffs order beta) = some V ∧ Ordinary V ∧
      ∑ c, ∑ d : Fin (order c), beta c d * basis (d + 1) (t c) ∈ V := by
    intro t ht
    obtain ⟨V, h1, h2, h3⟩ := objDot_encloses R (Iv.mulNum R) (fun x X => x ∈ X ∧ Ordinary X) (fun x c => x = c)
      (fun x X y Y hX hY => ⟨(C05_rmul_encloses R Y X hX.2).2.1 _ ⟨x, hX.1, by rw [hY]⟩,
        (C05_rmul_encloses R Y X hX.2).2.2⟩)
      ((List.finRange C).flatMap fun c => List.ofFn fun d => expanded basis roots order x c d) (flatCoeffs order beta)
      ((List.finRange C).flatMap fun c => List.ofFn fun d : Fin (order c) => basis (d + 1) (t c)) (flatCoeffs order beta)
      (by
        obtain ⟨c, hc⟩ := hC
        intro h
        rw [List.flatMap_eq_nil_iff] at h
        have := congrArg List.length (h c (by simp))
        simp at this
        omega)
      (by simp [flatCoeffs, List.length_flatMap])
      (forall₂_flat order _ _ _ (fun c d => ⟨he c d _ ⟨t c, ht c, rfl⟩, (rangeOf_spec _ _ _ (hx c)).1⟩) _)
      (by rw [List.forall₂_eq_eq_eq])
    refine ⟨V, h1, h2, ?_⟩
    rw [flatCoeffs, zip_flat, ← List.ofFn_eq_map, List.sum_ofFn] at h3
    convert h3 using 3 with c _ d
    ring
  obtain ⟨V, h1, h2, _⟩ := key (fun c => (x c).a) fun c => ⟨le_rfl, hx c⟩
  refine ⟨V, ?_, h2, ?_⟩
  · rw [ispaePredict, expandRow_eq basis roots order x hx]
    dsimp only
    rw [h1]
  · rintro v ⟨t, ht, rfl⟩
    obtain ⟨W, h3, _, h4⟩ := key t ht
    rw [h1] at h3
    cases h3
    exact h4

open Polynomial in
/-- C54, prediction: for every rounding of the product the prediction encloses the values of the model on the box of
inputs; so it contains the value computed during fitting in exact arithmetic. -/
theorem C54_predict {C : ℕ} (B : ℕ → ℝ[X]) (roots : (ℝ → ℝ) → List ℝ) (hr : RootsOK roots) (R : Rnd ℝ)
    (order : Fin C → ℕ) (hC : ∃ c, 0 < order c) (beta : Coeffs ℝ order) (x : Fin C → Iv ℝ)
    (hx : ∀ c, (x c).a ≤ (x c).b) :
    ∃ V, ispaePredict R (fun d t => (B d).eval t) roots order beta x = .ok V ∧ Ordinary V ∧
      Encloses V (ModelValues (fun d t => (B d).eval t) beta x) ∧
      ∀ W, ispaeValue Rnd.exact (fun d t => (B d).eval t) roots order beta x = .ok W → Sub W V := by
  obtain ⟨V, h1, h2, h3⟩ := predict_encloses R (fun d t => (B d).eval t) roots order beta x hx hC (by
    intro c d
    have e : (fun t => 1 * (B (d + 1)).eval t) = fun t => (B (d + 1)).eval t := by
      funext t; rw [one_mul]
    rw [expanded, e]
    exact (rangeOf_exact roots hr _ _ (hx c)).1)
  refine ⟨V, h1, h2, h3, fun W hW => ?_⟩
  obtain ⟨c0, _⟩ := hC
  obtain ⟨W', h4, _, h5⟩ := C54_value c0.pos B roots hr order beta x hx
  rw [hW] at h4
  cases h4
  intro s hs
  exact ⟨(h3 _ h5.2.1).1.trans hs.1, hs.2.trans (h3 _ h5.2.2).2⟩

/-- A finder of the stationary points of polynomials of degree two without constant term, for examples. -/
def quadRoots (p : ℚ → ℚ) : List ℚ := [-(p 1 - p (-1)) / (2 * (p 1 + p (-1)))]

/-- Without columns there is no interval. -/
example : ispaeValue (Rnd.exact : Rnd ℚ) (fun d t => t ^ d) quadRoots (fun c : Fin 0 => c.elim0) (fun c => c.elim0)
      (fun c => c.elim0) = .error .attributeError := rfl

/-- The prediction can be wider: `t + t^2` on `[-1, 1]` has the range `[-1/4, 2]`, the prediction is `[-1, 2]`. -/
example : ispaeValue (Rnd.exact : Rnd ℚ) (fun d t => t ^ d) quadRoots (fun _ : Fin 1 => 2) (fun _ _ => 1)
      (fun _ => ⟨.classical, -1, 1⟩) = .ok ⟨.classical, -1 / 4, 2⟩ ∧
    ispaePredict (Rnd.exact : Rnd ℚ) (fun d t => t ^ d) quadRoots (fun _ : Fin 1 => 2) (fun _ _ => 1)
      (fun _ => ⟨.classical, -1, 1⟩) = .ok ⟨.classical, -1, 2⟩ := by
  constructor <;> decide +kernel

/-! ## C78: the gradient -/

/-- C78 as stated: the vector the `Tol` objective hands to the optimiser is a subgradient of the function it minimises. -/
def C78_statement (K : Type) [Field K] [LinearOrder K] [IsStrictOrderedRing K] : Prop :=
  ∀ (m C : ℕ) (basis : ℕ → K → K) (roots : (K → K) → List K) (norm : NormArg) (D : IspaeData K m C)
    (beta beta' g g' : Coeffs K D.order) (f f' : K), (∀ i, 0 < D.weight i) →
    (∀ i, ColumnsExact basis roots beta (D.x i)) → (∀ i, ColumnsExact basis roots beta' (D.x i)) →
    (∀ i c (d : Fin (D.order c)), IsRange (expanded basis roots D.order (D.x i) c d) (ValuesOn (basis (d + 1)) (D.x i c))) →
    ispaeCalcfg basis roots (some false) norm D beta = .ok (f, g) →
    ispaeCalcfg basis roots (some false) norm D beta' = .ok (f', g') →
    f + ∑ c, ∑ d, g c d * (beta' c d - beta c d) ≤ f'

/-- One row and one column with the input `[-1, 1]`, order 2 and the output `[1/2, 3/2]`. -/
def gradData : IspaeData ℚ 1 1 :=
  ⟨fun _ => 2, fun _ _ => ⟨.classical, -1, 1⟩, fun _ => ⟨.classical, 1 / 2, 3 / 2⟩, fun _ => 1⟩

/-- The coefficients `b1`, `b2` of degree 1 and 2. -/
def gradBeta (b1 b2 : ℚ) : Coeffs ℚ gradData.order := fun _ d => if d.1 = 0 then b1 else b2

theorem gradData_range (b1 b2 l u va vb : ℚ) (hl : -1 ≤ l ∧ l ≤ 1) (hu : -1 ≤ u ∧ u ≤ 1)
    (e : rangeOf (colPoly (fun d t => t ^ d) (gradBeta b1 b2 0)) (quadRoots (colPoly (fun d t => t ^ d) (gradBeta b1 b2 0)))
      (gradData.x 0 0) = ⟨.classical, va, vb⟩)
    (ha : va = b1 * l + b2 * l ^ 2) (hb : vb = b1 * u + b2 * u ^ 2)
    (h : ∀ t, -1 ≤ t → t ≤ 1 → va ≤ b1 * t + b2 * t ^ 2 ∧ b1 * t + b2 * t ^ 2 ≤ vb) :
    ∀ i, ColumnsExact (fun d t => t ^ d) quadRoots (gradBeta b1 b2) (gradData.x i) := by
  have e2 : ∀ t, colPoly (fun d t => t ^ d) (gradBeta b1 b2 0) t = b1 * t + b2 * t ^ 2 := by
    intro t
    change (∑ d : Fin 2, (if d.1 = 0 then b1 else b2) * t ^ ((d : ℕ) + 1)) = _
    rw [Fin.sum_univ_two]
    simp
  intro i c
  obtain rfl : i = 0 := Subsingleton.elim _ _
  obtain rfl : c = 0 := Subsingleton.elim _ _
  rw [e]
  refine ⟨?_, ⟨l, hl, by rw [e2]; exact ha⟩, ⟨u, hu, by rw [e2]; exact hb⟩⟩
  rintro v ⟨t, ht, rfl⟩
  rw [e2]
  exact h t ht.1 ht.2

/-- C78 is false: for one column of order 2 the gradient is `(1, 0)` at the coefficients `(1, 1)` where the function is
`1 + b1^2 / (4 b2)` minus a constant: at `(11/10, 1)` the function is 321/400, below the 17/20 the gradient promises. -/
theorem C78_gradient_false : ¬ C78_statement ℚ ∧
    (ispaeCalcfg (fun d t => t ^ d) quadRoots (some false) .inf gradData (gradBeta 1 1)).map
      (fun r => (r.1, r.2 0 (0 : Fin 2), r.2 0 (1 : Fin 2))) = .ok (3 / 4, 1, 0) := by
  have h1 : (ispaeCalcfg (fun d t => t ^ d) quadRoots (some false) .inf gradData (gradBeta 1 1)).map
      (fun r => (r.1, r.2 0 (0 : Fin 2), r.2 0 (1 : Fin 2))) = .ok (3 / 4, 1, 0) := by decide +kernel
  have h2 : (ispaeCalcfg (fun d t => t ^ d) quadRoots (some false) .inf gradData
      (gradBeta (11 / 10) 1)).map (fun r => r.1) = .ok (321 / 400) := by decide +kernel
  refine ⟨fun h => ?_, h1⟩
  have c1 : ∀ i, ColumnsExact (fun d t => t ^ d) quadRoots (gradBeta 1 1) (gradData.x i) :=
    gradData_range 1 1 (-1 / 2) 1 (-1 / 4) 2 (by norm_num) (by norm_num) (by decide +kernel) (by norm_num) (by norm_num)
      fun t h1 h2 => ⟨by nlinarith [sq_nonneg (t + 1 / 2)], by nlinarith⟩
  have c2 : ∀ i, ColumnsExact (fun d t => t ^ d) quadRoots (gradBeta (11 / 10) 1) (gradData.x i) :=
    gradData_range (11 / 10) 1 (-11 / 20) 1 (-121 / 400) (21 / 10) (by norm_num) (by norm_num) (by decide +kernel)
      (by norm_num) (by norm_num) fun t h1 h2 => ⟨by nlinarith [sq_nonneg (t + 11 / 20)], by nlinarith⟩
  have c3 : ∀ i c (d : Fin (gradData.order c)), IsRange (expanded (fun d t => t ^ d) quadRoots gradData.order (gradData.x i) c d)
      (ValuesOn (fun t => t ^ ((d : ℕ) + 1)) (gradData.x i c)) := by
    intro i c d
    obtain rfl : i = 0 := Subsingleton.elim _ _
    obtain rfl : c = 0 := Subsingleton.elim _ _
    change Fin 2 at d
    have hd : d = 0 ∨ d = 1 := by omega
    rcases hd with rfl | rfl
    · have e : expanded (fun d (t : ℚ) => t ^ d) quadRoots gradData.order (gradData.x 0) 0 (0 : Fin 2) = ⟨.classical, -1, 1⟩ := by
        decide +kernel
      rw [e]
      refine ⟨?_, ⟨-1, ⟨le_rfl, by norm_num [gradData]⟩, by norm_num⟩, ⟨1, ⟨by norm_num [gradData], le_rfl⟩, by norm_num⟩⟩
      rintro v ⟨t, ht, rfl⟩
      have h1 : -1 ≤ t := ht.1
      have h2 : t ≤ 1 := ht.2
      simp only [Iv.mem_def]
      simpa using ⟨h1, h2⟩
    · have e : expanded (fun d (t : ℚ) => t ^ d) quadRoots gradData.order (gradData.x 0) 0 (1 : Fin 2) = ⟨.classical, 0, 1⟩ := by
        decide +kernel
      rw [e]
      refine ⟨?_, ⟨0, ⟨by norm_num [gradData], by norm_num [gradData]⟩, by norm_num⟩, ⟨1, ⟨by norm_num [gradData], le_rfl⟩, by norm_num⟩⟩
      rintro v ⟨t, ht, rfl⟩
      have h1 : -1 ≤ t := ht.1
      have h2 : t ≤ 1 := ht.2
      simp only [Iv.mem_def]
      constructor
      · exact sq_nonneg t
      · change t ^ 2 ≤ 1; nlinarith
  cases h3 : ispaeCalcfg (fun d t => t ^ d) quadRoots (some false) .inf gradData (gradBeta 1 1) with
  | error e => rw [h3] at h1; cases h1
  | ok r =>
    cases h4 : ispaeCalcfg (fun d t => t ^ d) quadRoots (some false) .inf gradData
        (gradBeta (11 / 10) 1) with
    | error e => rw [h4] at h2; cases h2
    | ok r' =>
      rw [h3] at h1
      rw [h4] at h2
      have := h 1 1 _ _ .inf gradData _ _ r.2 r'.2 r.1 r'.1 (fun _ => by norm_num [gradData]) c1 c2 c3 h3 h4
      simp only [Except.map, Except.ok.injEq, Prod.mk.injEq] at h1 h2
      obtain ⟨e1, e2, e3⟩ := h1
      have s : (∑ c, ∑ d, r.2 c d * (gradBeta (11 / 10) 1 c d - gradBeta 1 1 c d)) =
          r.2 0 (0 : Fin 2) * (11 / 10 - 1) + r.2 0 (1 : Fin 2) * (1 - 1) := by
        rw [Fin.sum_univ_one]
        exact Fin.sum_univ_two _
      rw [s, e1, e2, e3, h2] at this
      norm_num at this

/-- The endpoint of the expanded data that the lower (upper) end of the natural extension uses. -/
def usedEnd {C : ℕ} (basis : ℕ → K → K) (roots : (K → K) → List K) {order : Fin C → ℕ} (beta : Coeffs K order)
    (x : Fin C → Iv K) (upper : Bool) (c : Fin C) (d : Fin (order c)) : K :=
  if (0 ≤ beta c d) = upper then (expanded basis roots order x c d).b else (expanded basis roots order x c d).a

/-- The row of the `Tol` objective lies below its linearisation, if the used ends are attained together. -/
theorem ispae_tol_row {C : ℕ} (hC : 0 < C) (basis : ℕ → K → K) (roots : (K → K) → List K) (D : IspaeData K m C)
    (beta beta' : Coeffs K D.order) (hx : ∀ i c, (D.x i c).a ≤ (D.x i c).b) (hw : ∀ i, 0 ≤ D.weight i)
    (h1 : ∀ i, ColumnsExact basis roots beta (D.x i)) (h2 : ∀ i, ColumnsExact basis roots beta' (D.x i))
    (h3 : ∀ i c (d : Fin (D.order c)),
      IsRange (expanded basis roots D.order (D.x i) c d) (ValuesOn (basis (d + 1)) (D.x i c)))
    (h4 : ∀ i upper, ∃ t : Fin C → K, (∀ c, t c ∈ D.x i c) ∧
      ∀ c (d : Fin (D.order c)), basis (d + 1) (t c) = usedEnd basis roots beta (D.x i) upper c d) (i : Fin m) :
    ispaeResidual basis roots false D beta' i ≤ ispaeResidual basis roots false D beta i +
      ∑ c, ∑ d, ispaeDiff basis roots false D beta i c d * (beta' c d - beta c d) := by
  obtain ⟨-, o1, r1⟩ := ispaeVal_range hC basis roots D.order beta (D.x i) (hx i) (h1 i)
  obtain ⟨-, o2, r2⟩ := ispaeVal_range hC basis roots D.order beta' (D.x i) (hx i) (h2 i)
  set V := ispaeVal basis roots D.order beta (D.x i) with hV
  set V' := ispaeVal basis roots D.order beta' (D.x i) with hV'
  set ym := (D.y i).mid Rnd.exact with hym
  have eca : (ispaeCentered basis roots D beta i).a = ym - V.b ∧ (ispaeCentered basis roots D beta i).b = ym - V.a := by
    rw [ispaeCentered, ← hV, ← hym]
    simp only [Iv.ufuncSub, Iv.radd, Iv.neg, Rnd.exact_dn, Rnd.exact_up, id]
    constructor <;> ring
  have eca' : (ispaeCentered basis roots D beta' i).a = ym - V'.b ∧ (ispaeCentered basis roots D beta' i).b = ym - V'.a := by
    rw [ispaeCentered, ← hV', ← hym]
    simp only [Iv.ufuncSub, Iv.radd, Iv.neg, Rnd.exact_dn, Rnd.exact_up, id]
    constructor <;> ring
  -- the used ends bound the terms of the model at beta
  have bound : ∀ (t : Fin C → K), (∀ c, t c ∈ D.x i c) → ∀ c (d : Fin (D.order c)),
      beta c d * usedEnd basis roots beta (D.x i) false c d ≤ beta c d * basis (d + 1) (t c) ∧
      beta c d * basis (d + 1) (t c) ≤ beta c d * usedEnd basis roots beta (D.x i) true c d := by
    intro t ht c d
    have hm := (h3 i c d).1 _ ⟨t c, ht c, rfl⟩
    unfold usedEnd
    by_cases hb : 0 ≤ beta c d
    · simp only [hb, eq_self_iff_true, if_true]
      simp
      exact ⟨mul_le_mul_of_nonneg_left hm.1 hb, mul_le_mul_of_nonneg_left hm.2 hb⟩
    · have hb' : beta c d ≤ 0 := (not_le.1 hb).le
      simp only [hb]
      simp
      exact ⟨mul_le_mul_of_nonpos_left hm.2 hb', mul_le_mul_of_nonpos_left hm.1 hb'⟩
  obtain ⟨tl, htl, hl⟩ := h4 i false
  obtain ⟨tu, htu, hu⟩ := h4 i true
  have va : V.a = ∑ c, ∑ d, beta c d * usedEnd basis roots beta (D.x i) false c d := by
    apply le_antisymm
    · have := (r1.1 _ ⟨tl, htl, rfl⟩).1
      simpa only [hl] using this
    · obtain ⟨t, ht, e⟩ := r1.2.1
      rw [e]
      exact Finset.sum_le_sum fun c _ => Finset.sum_le_sum fun d _ => (bound t ht c d).1
  have vb : V.b = ∑ c, ∑ d, beta c d * usedEnd basis roots beta (D.x i) true c d := by
    apply le_antisymm
    · obtain ⟨t, ht, e⟩ := r1.2.2
      rw [e]
      exact Finset.sum_le_sum fun c _ => Finset.sum_le_sum fun d _ => (bound t ht c d).2
    · have := (r1.1 _ ⟨tu, htu, rfl⟩).2
      simpa only [hu] using this
  have va' : V'.a ≤ ∑ c, ∑ d, beta' c d * usedEnd basis roots beta (D.x i) false c d := by
    have := (r2.1 _ ⟨tl, htl, rfl⟩).1
    simpa only [hl] using this
  have vb' : ∑ c, ∑ d, beta' c d * usedEnd basis roots beta (D.x i) true c d ≤ V'.b := by
    have := (r2.1 _ ⟨tu, htu, rfl⟩).2
    simpa only [hu] using this
  have hV2 := o1.2
  have split : ∀ upper, ∑ c, ∑ d, usedEnd basis roots beta (D.x i) upper c d * (beta' c d - beta c d) =
      (∑ c, ∑ d, beta' c d * usedEnd basis roots beta (D.x i) upper c d) -
      ∑ c, ∑ d, beta c d * usedEnd basis roots beta (D.x i) upper c d := by
    intro upper
    rw [← Finset.sum_sub_distrib]
    refine Finset.sum_congr rfl fun c _ => ?_
    rw [← Finset.sum_sub_distrib]
    exact Finset.sum_congr rfl fun d _ => by ring
  simp only [ispaeResidual, eca.1, eca.2, eca'.1, eca'.2, Bool.false_eq_true, if_false]
  by_cases hc : -(ym - V.b) ≤ ym - V.a
  · have ed : ∀ c (d : Fin (D.order c)), ispaeDiff basis roots false D beta i c d =
        D.weight i * usedEnd basis roots beta (D.x i) false c d := by
      intro c d
      simp only [ispaeDiff, eca.1, eca.2, if_pos hc, usedEnd, Bool.false_eq_true, if_false]
      by_cases hb : 0 ≤ beta c d <;> simp [hb]
    simp only [ed, mul_assoc, ← Finset.mul_sum]
    rw [split, ← va, ← mul_add]
    refine mul_le_mul_of_nonneg_left ?_ (hw i)
    have e1 : max |ym - V.b| |ym - V.a| = ym - V.a := by
      rw [max_eq_right, abs_of_nonneg] <;> [linarith; skip]
      rw [abs_of_nonneg (by linarith : 0 ≤ ym - V.a), abs_le]
      constructor <;> linarith
    have e2 : ym - V'.a ≤ max |ym - V'.b| |ym - V'.a| := (le_abs_self _).trans (le_max_right _ _)
    rw [e1]
    linarith
  · have ed : ∀ c (d : Fin (D.order c)), ispaeDiff basis roots false D beta i c d =
        D.weight i * -usedEnd basis roots beta (D.x i) true c d := by
      intro c d
      simp only [ispaeDiff, eca.1, eca.2, if_neg hc, usedEnd, Bool.false_eq_true, if_false]
      by_cases hb : 0 ≤ beta c d <;> simp [hb]
    simp only [ed, mul_assoc, ← Finset.mul_sum, neg_mul, Finset.sum_neg_distrib]
    rw [split, ← vb, ← mul_add]
    refine mul_le_mul_of_nonneg_left ?_ (hw i)
    have e1 : max |ym - V.b| |ym - V.a| = V.b - ym := by
      rw [max_eq_left, abs_of_nonpos] <;> [ring; linarith; skip]
      rw [abs_of_nonpos (by linarith : ym - V.b ≤ 0), abs_le]
      constructor <;> linarith
    have e2 : V'.b - ym ≤ max |ym - V'.b| |ym - V'.a| := by
      refine le_trans ?_ (le_max_left _ _)
      rw [abs_sub_comm]
      exact le_abs_self _
    rw [e1]
    linarith

/-- C78 (partial): the vector is a subgradient where, in every row, one point of the input box attains all the ends the
lower end of the natural extension uses, and one attains those of its upper end.  Missing for the full statement: all other
coefficients, where it is false (`C78_gradient_false`). -/
theorem C78_gradient_partial {C : ℕ} (basis : ℕ → K → K) (roots : (K → K) → List K) (norm : NormArg)
    (D : IspaeData K m C) (beta beta' g g' : Coeffs K D.order) (f f' : K) (hw : ∀ i, 0 ≤ D.weight i)
    (h1 : ∀ i, ColumnsExact basis roots beta (D.x i)) (h2 : ∀ i, ColumnsExact basis roots beta' (D.x i))
    (h3 : ∀ i c (d : Fin (D.order c)),
      IsRange (expanded basis roots D.order (D.x i) c d) (ValuesOn (basis (d + 1)) (D.x i c)))
    (h4 : ∀ i upper, ∃ t : Fin C → K, (∀ c, t c ∈ D.x i c) ∧
      ∀ c (d : Fin (D.order c)), basis (d + 1) (t c) = usedEnd basis roots beta (D.x i) upper c d)
    (h : ispaeCalcfg basis roots (some false) norm D beta = .ok (f, g))
    (h' : ispaeCalcfg basis roots (some false) norm D beta' = .ok (f', g')) :
    f + ∑ c, ∑ d, g c d * (beta' c d - beta c d) ≤ f' := by
  unfold ispaeCalcfg at h h'
  split_ifs at h with hx hC
  rw [if_neg hx] at h'
  dsimp only at h h'
  rw [if_neg hC] at h'
  have hx' : ∀ i c, (D.x i c).a ≤ (D.x i c).b := by
    intro i c
    by_contra hcon
    exact hx ⟨i, c, not_le.1 hcon⟩
  have row := ispae_tol_row (Nat.pos_of_ne_zero hC) basis roots D beta beta' hx' hw h1 h2 h3 h4
  cases norm with
  | inf =>
      unfold wrapNorm at h h'
      dsimp only at h h'
      cases hi : npArgmin (ispaeResidual basis roots false D beta) with
      | error e => rw [hi] at h; cases h
      | ok i =>
        cases hi' : npArgmin (ispaeResidual basis roots false D beta') with
        | error e => rw [hi'] at h'; cases h'
        | ok i' =>
          rw [hi] at h
          rw [hi'] at h'
          injection h with h
          obtain ⟨rfl, rfl⟩ := Prod.mk.inj h
          injection h' with h'
          obtain ⟨rfl, rfl⟩ := Prod.mk.inj h'
          obtain ⟨k, hk, hmin⟩ := npArgmin_ok i'.pos (ispaeResidual basis roots false D beta')
          rw [hi'] at hk
          injection hk with hk
          subst hk
          have := hmin i
          have := row i
          simp only [List.map_cons, List.map_nil, List.sum_cons, List.sum_nil, add_zero, neg_mul,
            Finset.sum_neg_distrib]
          linarith
  | l1 =>
      unfold wrapNorm at h h'
      dsimp only at h h'
      injection h with h
      obtain ⟨rfl, rfl⟩ := Prod.mk.inj h
      injection h' with h'
      obtain ⟨rfl, rfl⟩ := Prod.mk.inj h'
      have rows := Finset.sum_le_sum fun i (_ : i ∈ Finset.univ) => row i
      rw [Finset.sum_add_distrib] at rows
      have e : ∀ c d, (List.map (fun i => ispaeDiff basis roots false D beta i c d) (List.finRange m)).sum =
          ∑ i, ispaeDiff basis roots false D beta i c d := by
        intro c d
        rw [← List.ofFn_eq_map, List.sum_ofFn]
      have e2 : ∑ c, ∑ d, (∑ i, ispaeDiff basis roots false D beta i c d) * (beta' c d - beta c d) =
          ∑ i, ∑ c, ∑ d, ispaeDiff basis roots false D beta i c d * (beta' c d - beta c d) := by
        rw [Finset.sum_comm]
        refine Finset.sum_congr rfl fun c _ => ?_
        rw [Finset.sum_comm]
        exact Finset.sum_congr rfl fun d _ => Finset.sum_mul _ _ _
      simp only [e, neg_mul, Finset.sum_neg_distrib]
      rw [e2]
      linarith
  | other => cases h

/-- C78, order 1: with one coefficient per column the vector is a subgradient everywhere. -/
theorem C78_linear {C : ℕ} (basis : ℕ → K → K) (roots : (K → K) → List K) (norm : NormArg)
    (D : IspaeData K m C) (ho : ∀ c, D.order c ≤ 1) (beta beta' g g' : Coeffs K D.order) (f f' : K)
    (hw : ∀ i, 0 ≤ D.weight i) (h1 : ∀ i, ColumnsExact basis roots beta (D.x i))
    (h2 : ∀ i, ColumnsExact basis roots beta' (D.x i))
    (h3 : ∀ i c (d : Fin (D.order c)),
      IsRange (expanded basis roots D.order (D.x i) c d) (ValuesOn (basis (d + 1)) (D.x i c)))
    (h : ispaeCalcfg basis roots (some false) norm D beta = .ok (f, g))
    (h' : ispaeCalcfg basis roots (some false) norm D beta' = .ok (f', g')) :
    f + ∑ c, ∑ d, g c d * (beta' c d - beta c d) ≤ f' := by
  refine C78_gradient_partial basis roots norm D beta beta' g g' f f' hw h1 h2 h3 ?_ h h'
  have hx' : ∀ i c, (D.x i c).a ≤ (D.x i c).b := by
    intro i c
    by_contra hcon
    unfold ispaeCalcfg at h
    rw [if_pos ⟨i, c, not_le.1 hcon⟩] at h
    cases h
  intro i upper
  have : ∀ c, ∃ t ∈ D.x i c, ∀ d : Fin (D.order c), basis (d + 1) t = usedEnd basis roots beta (D.x i) upper c d := by
    intro c
    rcases Nat.eq_zero_or_pos (D.order c) with h0 | h0
    · exact ⟨(D.x i c).a, ⟨le_rfl, hx' i c⟩, fun d => absurd d.2 (by omega)⟩
    · have hd : ∀ d : Fin (D.order c), d = ⟨0, h0⟩ := by
        intro d
        have := ho c
        exact Fin.ext (by have := d.2; omega)
      have hr := h3 i c ⟨0, h0⟩
      unfold usedEnd
      by_cases hb : (0 ≤ beta c ⟨0, h0⟩) = upper
      · obtain ⟨t, ht, e⟩ := hr.2.2
        refine ⟨t, ht, fun d => ?_⟩
        rw [hd d, if_pos hb]
        exact e.symm
      · obtain ⟨t, ht, e⟩ := hr.2.1
        refine ⟨t, ht, fun d => ?_⟩
        rw [hd d, if_neg hb]
        exact e.symm
  choose t ht he using this
  exact ⟨t, ht, he⟩

open Polynomial in
/-- C78, order 1, for real numbers, a polynomial basis and the true stationary points (the assumptions of `C78_linear` hold
for every input). -/
theorem C78_linear_real {C : ℕ} (B : ℕ → ℝ[X]) (roots : (ℝ → ℝ) → List ℝ) (hr : RootsOK roots) (norm : NormArg)
    (D : IspaeData ℝ m C) (ho : ∀ c, D.order c ≤ 1) (beta beta' g g' : Coeffs ℝ D.order) (f f' : ℝ)
    (hw : ∀ i, 0 ≤ D.weight i)
    (h : ispaeCalcfg (fun d t => (B d).eval t) roots (some false) norm D beta = .ok (f, g))
    (h' : ispaeCalcfg (fun d t => (B d).eval t) roots (some false) norm D beta' = .ok (f', g')) :
    f + ∑ c, ∑ d, g c d * (beta' c d - beta c d) ≤ f' := by
  have hx' : ∀ i c, (D.x i c).a ≤ (D.x i c).b := by
    intro i c
    by_contra hcon
    unfold ispaeCalcfg at h
    rw [if_pos ⟨i, c, not_le.1 hcon⟩] at h
    cases h
  refine C78_linear _ roots norm D ho beta beta' g g' f f' hw (fun i => columnsExact_real B roots hr beta _ (hx' i))
    (fun i => columnsExact_real B roots hr beta' _ (hx' i)) ?_ h h'
  intro i c d
  have e : (fun t => 1 * (B (d + 1)).eval t) = fun t => (B (d + 1)).eval t := by
    funext t; rw [one_mul]
  rw [expanded, e]
  exact rangeOf_exact roots hr _ _ (hx' i c)

/-- A row with the input `[1, 2]`, the output `[0, 4]` and order 1: the function and its slope at the coefficient 3. -/
example : (ispaeCalcfg (fun d t => t ^ d) quadRoots (some false) .inf
      (⟨fun _ => 1, fun _ _ => ⟨.classical, 1, 2⟩, fun _ => ⟨.classical, 0, 4⟩, fun _ => 1⟩ : IspaeData ℚ 1 1)
      fun _ _ => 3).map (fun r => (r.1, r.2 0 (0 : Fin 1))) = .ok (2, 2) := by decide +kernel

end IntvalPy
