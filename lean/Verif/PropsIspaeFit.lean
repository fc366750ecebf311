import Verif.ModelIspae
import Verif.PropsIspaeUni
import Mathlib.Data.List.GetD

/-!
# Properties of the bias column and of the whole of `ISPAE.fit` (C116, C117)
-/

set_option autoImplicit false
set_option linter.unusedSectionVars false

namespace IntvalPy

open Spec Polynomial

variable {m : ℕ}

/-! ## The bases as polynomials -/

/-- The five families of polynomials. -/
noncomputable def PolyBasis.poly : PolyBasis → ℕ → ℝ[X]
  | .monom, d => X ^ d
  | .chebyshev, 0 => 1
  | .chebyshev, 1 => X
  | .chebyshev, n + 2 => C 2 * X * PolyBasis.poly .chebyshev (n + 1) - PolyBasis.poly .chebyshev n
  | .hermite, 0 => 1
  | .hermite, 1 => C 2 * X
  | .hermite, n + 2 => C 2 * X * PolyBasis.poly .hermite (n + 1) - C (2 * ((n : ℝ) + 1)) * PolyBasis.poly .hermite n
  | .laguerre, 0 => 1
  | .laguerre, 1 => 1 - X
  | .laguerre, n + 2 => C ((n : ℝ) + 2)⁻¹ * ((C (2 * (n : ℝ) + 3) - X) * PolyBasis.poly .laguerre (n + 1)
      - C ((n : ℝ) + 1) * PolyBasis.poly .laguerre n)
  | .legendre, 0 => 1
  | .legendre, 1 => X
  | .legendre, n + 2 => C ((n : ℝ) + 2)⁻¹ * (C (2 * (n : ℝ) + 3) * X * PolyBasis.poly .legendre (n + 1)
      - C ((n : ℝ) + 1) * PolyBasis.poly .legendre n)

theorem PolyBasis.eval_poly (pb : PolyBasis) : (pb.fn : ℕ → ℝ → ℝ) = fun d t => (pb.poly d).eval t := by
  funext d t
  induction d using Nat.strong_induction_on with
  | _ d ih =>
    rcases d with _ | _ | n
    · cases pb <;> simp [PolyBasis.fn, PolyBasis.poly, chebFn, hermFn, lagFn, legFn]
    · cases pb <;> simp [PolyBasis.fn, PolyBasis.poly, chebFn, hermFn, lagFn, legFn]
    · have h0 := ih n (by omega)
      have h1 := ih (n + 1) (by omega)
      cases pb with
      | monom => simp [PolyBasis.fn, PolyBasis.poly]
      | chebyshev =>
        simp only [PolyBasis.fn] at h0 h1 ⊢
        simp [PolyBasis.poly, chebFn, h0, h1]
      | hermite =>
        simp only [PolyBasis.fn] at h0 h1 ⊢
        simp [PolyBasis.poly, hermFn, h0, h1]
      | laguerre =>
        simp only [PolyBasis.fn] at h0 h1 ⊢
        simp [PolyBasis.poly, lagFn, h0, h1]
        ring
      | legendre =>
        simp only [PolyBasis.fn] at h0 h1 ⊢
        simp [PolyBasis.poly, legFn, h0, h1]
        ring

theorem coeff_three_term {n : ℕ} {p q : ℝ[X]} (a b c : ℝ) (ha : a ≠ 0) (hp : p.natDegree ≤ n + 1) (hp' : p.coeff (n + 1) ≠ 0)
    (hq : q.natDegree ≤ n) :
    ((C a * X + C b) * p + C c * q).natDegree ≤ n + 2 ∧ ((C a * X + C b) * p + C c * q).coeff (n + 2) ≠ 0 := by
  constructor
  · refine (natDegree_add_le _ _).trans (max_le ?_ ?_)
    · refine natDegree_mul_le.trans ?_
      have : (C a * X + C b).natDegree ≤ 1 := natDegree_linear_le
      omega
    · refine natDegree_mul_le.trans ?_
      rw [natDegree_C]; omega
  · have e : ((C a * X + C b) * p + C c * q).coeff (n + 2) = a * p.coeff (n + 1) := by
      rw [coeff_add, add_mul, coeff_add, coeff_C_mul, coeff_C_mul, mul_assoc, coeff_C_mul, coeff_X_mul,
        coeff_eq_zero_of_natDegree_lt (p := p) (n := n + 2) (by omega),
        coeff_eq_zero_of_natDegree_lt (p := q) (n := n + 2) (by omega)]
      ring
    rw [e]
    exact mul_ne_zero ha hp'

theorem PolyBasis.degree_poly (pb : PolyBasis) (d : ℕ) : (pb.poly d).natDegree ≤ d ∧ (pb.poly d).coeff d ≠ 0 := by
  induction d using Nat.strong_induction_on with
  | _ d ih =>
    rcases d with _ | _ | n
    · cases pb <;> simp [PolyBasis.poly]
    · have h2 : (C 2 * X : ℝ[X]) = C 2 * X + C 0 := by simp
      have h3 : (1 - X : ℝ[X]) = C (-1) * X + C 1 := by simp; ring
      cases pb
      · simp [PolyBasis.poly]
      · simp [PolyBasis.poly]
      · show (C 2 * X : ℝ[X]).natDegree ≤ 1 ∧ (C 2 * X : ℝ[X]).coeff 1 ≠ 0
        rw [h2]
        exact ⟨natDegree_linear_le, by simp [coeff_C]⟩
      · show (1 - X : ℝ[X]).natDegree ≤ 1 ∧ (1 - X : ℝ[X]).coeff 1 ≠ 0
        rw [h3]
        exact ⟨natDegree_linear_le, by simp [coeff_one]⟩
      · simp [PolyBasis.poly]
    · have h0 := ih n (by omega)
      have h1 := ih (n + 1) (by omega)
      have hn : ((n : ℝ) + 2)⁻¹ ≠ 0 := inv_ne_zero (by positivity)
      cases pb with
      | monom => simp [PolyBasis.poly]
      | chebyshev =>
        have e : PolyBasis.poly .chebyshev (n + 2) =
            (C 2 * X + C 0) * PolyBasis.poly .chebyshev (n + 1) + C (-1) * PolyBasis.poly .chebyshev n := by
          simp [PolyBasis.poly]; ring
        rw [e]
        exact coeff_three_term 2 0 (-1) (by norm_num) h1.1 h1.2 h0.1
      | hermite =>
        have e : PolyBasis.poly .hermite (n + 2) =
            (C 2 * X + C 0) * PolyBasis.poly .hermite (n + 1) + C (-(2 * ((n : ℝ) + 1))) * PolyBasis.poly .hermite n := by
          simp [PolyBasis.poly]; ring
        rw [e]
        exact coeff_three_term 2 0 _ (by norm_num) h1.1 h1.2 h0.1
      | laguerre =>
        have e : PolyBasis.poly .laguerre (n + 2) =
            (C (((n : ℝ) + 2)⁻¹ * (-1)) * X + C (((n : ℝ) + 2)⁻¹ * (2 * n + 3))) * PolyBasis.poly .laguerre (n + 1) +
              C (((n : ℝ) + 2)⁻¹ * (-(n + 1))) * PolyBasis.poly .laguerre n := by
          simp only [PolyBasis.poly, C_mul, C_neg, C_1]; ring
        rw [e]
        exact coeff_three_term _ _ _ (mul_ne_zero hn (by norm_num)) h1.1 h1.2 h0.1
      | legendre =>
        have e : PolyBasis.poly .legendre (n + 2) =
            (C (((n : ℝ) + 2)⁻¹ * (2 * n + 3)) * X + C 0) * PolyBasis.poly .legendre (n + 1) +
              C (((n : ℝ) + 2)⁻¹ * (-(n + 1))) * PolyBasis.poly .legendre n := by
          simp only [PolyBasis.poly, C_mul, C_neg, C_0]; ring
        rw [e]
        exact coeff_three_term _ _ _ (mul_ne_zero hn (by positivity)) h1.1 h1.2 h0.1

theorem PolyBasis.poly_zero (pb : PolyBasis) : pb.poly 0 = 1 := by cases pb <;> simp [PolyBasis.poly]

/-- Polynomials of degree at most `N` are combinations of the first members of the family, in one way. -/
theorem PolyBasis.combine (pb : PolyBasis) (N : ℕ) (p : ℝ[X]) (hp : p.natDegree ≤ N) :
    ∃ c : ℕ → ℝ, p = ∑ d ∈ Finset.range (N + 1), C (c d) * pb.poly d := by
  induction N generalizing p with
  | zero =>
    refine ⟨fun _ => p.coeff 0, ?_⟩
    rw [Finset.sum_range_one, pb.poly_zero, mul_one]
    exact eq_C_of_natDegree_le_zero hp
  | succ N ih =>
    obtain ⟨hd, hc⟩ := pb.degree_poly (N + 1)
    set a : ℝ := p.coeff (N + 1) / (pb.poly (N + 1)).coeff (N + 1) with ha
    have hq : (p - C a * pb.poly (N + 1)).natDegree ≤ N := by
      rw [natDegree_le_iff_coeff_eq_zero]
      intro k hk
      rw [coeff_sub, coeff_C_mul]
      rcases eq_or_lt_of_le (Nat.succ_le_of_lt hk) with e | l
      · have e' : k = N + 1 := e.symm
        subst e'
        rw [ha, div_mul_cancel₀ _ hc, sub_self]
      · rw [coeff_eq_zero_of_natDegree_lt (p := p) (by omega), coeff_eq_zero_of_natDegree_lt (p := pb.poly (N + 1)) (by omega)]
        simp
    obtain ⟨c, hc'⟩ := ih _ hq
    refine ⟨fun d => if d = N + 1 then a else c d, ?_⟩
    rw [Finset.sum_range_succ]
    simp only [if_true]
    have : ∑ d ∈ Finset.range (N + 1), C (if d = N + 1 then a else c d) * pb.poly d =
        ∑ d ∈ Finset.range (N + 1), C (c d) * pb.poly d := by
      refine Finset.sum_congr rfl fun d hd => ?_
      rw [if_neg (by have := Finset.mem_range.1 hd; omega)]
    rw [this, ← hc']
    ring

theorem PolyBasis.independent (pb : PolyBasis) (N : ℕ) (c : ℕ → ℝ)
    (h : ∑ d ∈ Finset.range N, C (c d) * pb.poly d = 0) : ∀ d < N, c d = 0 := by
  induction N with
  | zero => intro d hd; omega
  | succ N ih =>
    obtain ⟨hd, hc⟩ := pb.degree_poly N
    have top : c N = 0 := by
      have := congrArg (fun p => p.coeff N) h
      simp only [finset_sum_coeff, coeff_zero, coeff_C_mul] at this
      rw [Finset.sum_range_succ, Finset.sum_eq_zero] at this
      · rw [zero_add] at this
        exact (mul_eq_zero.1 this).resolve_right hc
      · intro d hd
        have hd' := Finset.mem_range.1 hd
        rw [coeff_eq_zero_of_natDegree_lt (lt_of_le_of_lt (pb.degree_poly d).1 hd'), mul_zero]
    rw [Finset.sum_range_succ, top, C_0, zero_mul, add_zero] at h
    intro d hdn
    rcases Nat.lt_succ_iff_lt_or_eq.1 hdn with l | e
    · exact ih h d l
    · rw [e]; exact top

/-! ## C116: the bias column -/

/-- The values of the model at the inputs of a box, without the bias column: `∑ c, ∑ d, beta c d * B (d + 1) (t c)`. -/
def PlainValues {C : ℕ} (pb : PolyBasis) {order : Fin C → ℕ} (beta : Coeffs ℝ order) (x : Fin C → Iv ℝ) (v : ℝ) : Prop :=
  ∃ t : Fin C → ℝ, (∀ c, t c ∈ x c) ∧ v = ∑ c, ∑ d, beta c d * (pb.poly (d + 1)).eval (t c)

/-- The value of the model with the bias column: a multiple of the first basis polynomial at 1, plus the rest. -/
theorem modelValues_bias {C : ℕ} (pb : PolyBasis) {o : Fin (C + 1) → ℕ} (ho : o 0 = 1) (beta : Coeffs ℝ o)
    (x : Fin C → Iv ℝ) (v : ℝ) :
    ModelValues pb.fn beta (biasRow x) v ↔ ∃ w, PlainValues pb (order := fun c => o c.succ) (fun c => beta c.succ) x w ∧
      v = beta 0 ⟨0, by omega⟩ * (pb.poly 1).eval 1 + w := by
  have head : ∀ s : ℝ, ∑ d : Fin (o 0), beta 0 d * (pb.poly (d + 1)).eval s =
      beta 0 ⟨0, by omega⟩ * (pb.poly 1).eval s := by
    intro s
    have gen : ∀ (k : ℕ) (hk : k = 1) (b : Fin k → ℝ), ∑ d : Fin k, b d * (pb.poly (d + 1)).eval s =
        b ⟨0, by omega⟩ * (pb.poly 1).eval s := by
      rintro k rfl b
      simp
    exact gen (o 0) ho (beta 0)
  unfold ModelValues PlainValues
  rw [pb.eval_poly]
  constructor
  · rintro ⟨t, ht, rfl⟩
    have h1 : t 0 = 1 := by
      have := ht 0
      exact le_antisymm this.2 this.1
    refine ⟨_, ⟨fun c => t c.succ, fun c => ht c.succ, rfl⟩, ?_⟩
    rw [Fin.sum_univ_succ]
    simp only [colPoly]
    rw [head, h1]
  · rintro ⟨w, ⟨t, ht, rfl⟩, rfl⟩
    refine ⟨Fin.cons 1 t, ?_, ?_⟩
    · intro c
      refine Fin.cases ?_ (fun c => ?_) c
      · exact ⟨le_refl (1 : ℝ), le_refl (1 : ℝ)⟩
      · exact ht c
    · rw [Fin.sum_univ_succ]
      simp only [colPoly, Fin.cons_zero, Fin.cons_succ]
      rw [head]

/-- The first basis polynomial at 1. -/
theorem PolyBasis.at_one (pb : PolyBasis) : (pb.poly 1).eval 1 =
    match pb with
    | .hermite => 2
    | .laguerre => 0
    | _ => 1 := by
  cases pb <;> simp [PolyBasis.poly]

/-- C116: with `bias=True` a constant term is added to the model: whatever the other coefficients are, there is a value of the
bias coefficient with which the interval value of the model on every box of inputs is the range of `c` plus the polynomials. -/
def C116_statement (pb : PolyBasis) : Prop :=
  ∀ c : ℝ, ∃ b0 : ℝ, ∀ (roots : (ℝ → ℝ) → List ℝ), RootsOK roots → ∀ {C : ℕ} (o : Fin (C + 1) → ℕ) (_ : o 0 = 1)
    (beta : Coeffs ℝ o) (_ : ∀ d, beta 0 d = b0) (x : Fin C → Iv ℝ) (_ : ∀ c, (x c).a ≤ (x c).b),
    ∃ V, ispaeValue Rnd.exact pb.fn roots o beta (biasRow x) = .ok V ∧
      IsRange V fun v => ∃ w, PlainValues pb (order := fun c => o c.succ) (fun c => beta c.succ) x w ∧ v = c + w

theorem ispaeValue_bias {C : ℕ} (pb : PolyBasis) (roots : (ℝ → ℝ) → List ℝ) (hr : RootsOK roots) {o : Fin (C + 1) → ℕ}
    (ho : o 0 = 1) (beta : Coeffs ℝ o) (x : Fin C → Iv ℝ) (hx : ∀ c, (x c).a ≤ (x c).b) :
    ∃ V, ispaeValue Rnd.exact pb.fn roots o beta (biasRow x) = .ok V ∧
      IsRange V fun v => ∃ w, PlainValues pb (order := fun c => o c.succ) (fun c => beta c.succ) x w ∧
        v = beta 0 ⟨0, by omega⟩ * (pb.poly 1).eval 1 + w := by
  have hx' : ∀ c, (biasRow x c).a ≤ (biasRow x c).b := by
    intro c
    refine Fin.cases ?_ (fun c => ?_) c
    · exact le_refl (1 : ℝ)
    · exact hx c
  obtain ⟨V, h1, -, h2⟩ := C54_value (Nat.succ_pos C) pb.poly roots hr o beta (biasRow x) hx'
  rw [← pb.eval_poly] at h1 h2
  refine ⟨V, h1, ?_⟩
  have e : ModelValues pb.fn beta (biasRow x) = fun v => ∃ w, PlainValues pb (order := fun c => o c.succ)
      (fun c => beta c.succ) x w ∧ v = beta 0 ⟨0, by omega⟩ * (pb.poly 1).eval 1 + w := by
    funext v
    exact propext (modelValues_bias pb ho beta x v)
  rwa [e] at h2

/-- C116 holds for the bases `monom`, `chebyshev`, `hermite` and `legendre`. -/
theorem C116_bias_partial (pb : PolyBasis) (hpb : pb ≠ .laguerre) : C116_statement pb := by
  intro c
  have h1 : (pb.poly 1).eval (1 : ℝ) ≠ 0 := by
    rw [pb.at_one]
    cases pb <;> simp at hpb ⊢
  refine ⟨c / (pb.poly 1).eval 1, ?_⟩
  intro roots hr C o ho beta hb x hx
  obtain ⟨V, h, hV⟩ := ispaeValue_bias pb roots hr ho beta x hx
  refine ⟨V, h, ?_⟩
  rw [hb, div_mul_cancel₀ _ h1] at hV
  exact hV

/-- C116 is false for the basis `laguerre`: its first polynomial `1 - t` is zero at 1, so that the bias coefficient has no
effect on the value of the model at all. -/
theorem C116_bias_false : ¬ C116_statement .laguerre ∧
    ∀ (roots : (ℝ → ℝ) → List ℝ), RootsOK roots → ∀ {C : ℕ} (o : Fin (C + 1) → ℕ) (_ : o 0 = 1) (beta : Coeffs ℝ o)
      (x : Fin C → Iv ℝ) (_ : ∀ c, (x c).a ≤ (x c).b),
      ∃ V, ispaeValue Rnd.exact PolyBasis.laguerre.fn roots o beta (biasRow x) = .ok V ∧
        IsRange V (PlainValues .laguerre (order := fun c => o c.succ) (fun c => beta c.succ) x) := by
  have second : ∀ (roots : (ℝ → ℝ) → List ℝ), RootsOK roots → ∀ {C : ℕ} (o : Fin (C + 1) → ℕ) (_ : o 0 = 1)
      (beta : Coeffs ℝ o) (x : Fin C → Iv ℝ) (_ : ∀ c, (x c).a ≤ (x c).b),
      ∃ V, ispaeValue Rnd.exact PolyBasis.laguerre.fn roots o beta (biasRow x) = .ok V ∧
        IsRange V (PlainValues .laguerre (order := fun c => o c.succ) (fun c => beta c.succ) x) := by
    intro roots hr C o ho beta x hx
    obtain ⟨V, h, hV⟩ := ispaeValue_bias .laguerre roots hr ho beta x hx
    refine ⟨V, h, ?_⟩
    have e : (fun v => ∃ w, PlainValues .laguerre (order := fun c => o c.succ) (fun c => beta c.succ) x w ∧
        v = beta 0 ⟨0, by omega⟩ * (PolyBasis.laguerre.poly 1).eval 1 + w) =
        PlainValues .laguerre (order := fun c => o c.succ) (fun c => beta c.succ) x := by
      funext v
      rw [PolyBasis.at_one]
      simp
    rwa [e] at hV
  refine ⟨fun h => ?_, second⟩
  obtain ⟨b0, hb0⟩ := h 1
  obtain ⟨roots, hr⟩ := rootsOK_exists
  obtain ⟨V, h1, hV⟩ := hb0 roots hr (C := 0) (fun _ => 1) rfl (fun _ _ => b0) (fun _ => rfl) Fin.elim0 (fun c => c.elim0)
  obtain ⟨W, h2, hW⟩ := second roots hr (C := 0) (fun _ => 1) rfl (fun _ _ => b0) Fin.elim0 (fun c => c.elim0)
  rw [h1] at h2
  cases h2
  obtain ⟨w, ⟨t, -, rfl⟩, e⟩ := hV.2.1
  obtain ⟨s, -, e'⟩ := hW.2.1
  rw [e'] at e
  simp at e

/-- C116, one column of order `N` with bias: for the bases other than `laguerre` every polynomial of degree at most `N` is
the model for exactly one vector of coefficients; for `laguerre` no nonzero constant is, whatever the order. -/
theorem C116_polynomials (N : ℕ) (o : Fin 2 → ℕ) (h0 : o 0 = 1) (h1 : o 1 = N) :
    (∀ pb : PolyBasis, pb ≠ .laguerre → ∀ p : ℝ[X], p.natDegree ≤ N → ∃! beta : Coeffs ℝ o, ∀ s : ℝ,
      ∑ c, ∑ d, beta c d * pb.fn (d + 1) (if c = 0 then 1 else s) = p.eval s) ∧
    (∀ (beta : Coeffs ℝ o) (k : ℝ), k ≠ 0 →
      ¬ ∀ s : ℝ, ∑ c, ∑ d, beta c d * PolyBasis.laguerre.fn (d + 1) (if c = 0 then 1 else s) = k) := by
  -- the model as a combination of the family
  have comb : ∀ (pb : PolyBasis) (beta : Coeffs ℝ o), ∃ c : ℕ → ℝ,
      (∀ d : Fin (o 1), c (d + 1) = beta 1 d) ∧ c 0 = beta 0 ⟨0, by omega⟩ * (pb.poly 1).eval 1 ∧
      ∀ s : ℝ, ∑ c, ∑ d, beta c d * pb.fn (d + 1) (if c = 0 then 1 else s) =
        (∑ d ∈ Finset.range (N + 1), C (c d) * pb.poly d).eval s := by
    intro pb beta
    have gen : ∀ (k : ℕ) (hk : k = 1) (b : Fin k → ℝ), ∑ d : Fin k, b d * (pb.poly (d + 1)).eval 1 =
        b ⟨0, by omega⟩ * (pb.poly 1).eval 1 := by
      rintro k rfl b
      simp
    have gen2 : ∀ (k : ℕ) (_ : k = N) (b : Fin k → ℝ) (a s : ℝ), a + ∑ d : Fin k, b d * (pb.poly (d + 1)).eval s =
        (∑ d ∈ Finset.range (N + 1),
          C (match d with | 0 => a | d + 1 => if h : d < k then b ⟨d, h⟩ else 0) * pb.poly d).eval s := by
      rintro k rfl b a s
      rw [Finset.sum_range_succ', eval_add, eval_finset_sum, pb.poly_zero]
      simp only [eval_mul, eval_C, eval_one, mul_one]
      rw [Finset.sum_range (n := k)]
      simp only [Fin.is_lt, dif_pos, Fin.eta]
      rw [add_comm]
    refine ⟨fun d => match d with
      | 0 => beta 0 ⟨0, by omega⟩ * (pb.poly 1).eval 1
      | d + 1 => if h : d < o 1 then beta 1 ⟨d, h⟩ else 0, ?_, rfl, ?_⟩
    · intro d
      simp
    · intro s
      rw [Fin.sum_univ_two, pb.eval_poly]
      simp only [if_true, if_neg (show ¬ (1 : Fin 2) = 0 by decide)]
      rw [gen (o 0) h0 (beta 0), gen2 (o 1) h1 (beta 1)]
  constructor
  · intro pb hpb p hp
    have hne : (pb.poly 1).eval (1 : ℝ) ≠ 0 := by
      rw [pb.at_one]
      cases pb <;> simp at hpb ⊢
    obtain ⟨c, hc⟩ := pb.combine N p hp
    -- the coefficients of a model equal to `p` are those of the combination
    have uniq : ∀ beta : Coeffs ℝ o, (∀ s : ℝ, ∑ c, ∑ d, beta c d * pb.fn (d + 1) (if c = 0 then 1 else s) = p.eval s) ↔
        beta 0 ⟨0, by omega⟩ * (pb.poly 1).eval 1 = c 0 ∧ ∀ d : Fin (o 1), beta 1 d = c (d + 1) := by
      intro beta
      obtain ⟨e, e1, e2, e3⟩ := comb pb beta
      have hiff : (∀ s : ℝ, ∑ c, ∑ d, beta c d * pb.fn (d + 1) (if c = 0 then 1 else s) = p.eval s) ↔
          ∀ d < N + 1, e d = c d := by
        constructor
        · intro h
          have hp' : ∑ d ∈ Finset.range (N + 1), C (e d) * pb.poly d = p :=
            Polynomial.funext fun s => by rw [← e3 s, h s]
          have hz : ∑ d ∈ Finset.range (N + 1), C (e d - c d) * pb.poly d = 0 := by
            have : ∀ d, C (e d - c d) * pb.poly d = C (e d) * pb.poly d - C (c d) * pb.poly d := by
              intro d; rw [C_sub, sub_mul]
            simp only [this, Finset.sum_sub_distrib]
            rw [hp', ← hc, sub_self]
          intro d hd
          exact sub_eq_zero.1 (pb.independent (N + 1) _ hz d hd)
        · intro h s
          rw [e3, hc]
          congr 1
          exact Finset.sum_congr rfl fun d hd => by rw [h d (Finset.mem_range.1 hd)]
      rw [hiff]
      constructor
      · intro h
        refine ⟨by rw [← e2]; exact h 0 (by omega), fun d => ?_⟩
        rw [← e1 d]
        exact h (d + 1) (by have := d.isLt; omega)
      · rintro ⟨k0, k1⟩ d hd
        rcases d with _ | d
        · rw [e2]; exact k0
        · have := e1 ⟨d, by omega⟩
          rw [show (⟨d, by omega⟩ : Fin (o 1)).val = d from rfl] at this
          rw [this]
          exact k1 ⟨d, by omega⟩
    refine ⟨fun k => Fin.cases (motive := fun k => Fin (o k) → ℝ) (fun _ => c 0 / (pb.poly 1).eval 1)
      (fun k d => c (d + 1)) k, ?_, ?_⟩
    · refine (uniq _).2 ⟨?_, fun d => rfl⟩
      show c 0 / (pb.poly 1).eval 1 * (pb.poly 1).eval 1 = c 0
      rw [div_mul_cancel₀ _ hne]
    · intro beta hb
      obtain ⟨k0, k1⟩ := (uniq beta).1 hb
      funext k
      obtain rfl | rfl : k = 0 ∨ k = 1 := by
        have := k.isLt
        rcases k with ⟨_ | _ | k, hk⟩
        · exact Or.inl rfl
        · exact Or.inr rfl
        · omega
      · funext d
        have hd : d = ⟨0, by omega⟩ := by
          apply Fin.ext
          have := d.isLt
          show d.val = 0
          omega
        rw [hd]
        show beta 0 ⟨0, by omega⟩ = c 0 / (pb.poly 1).eval 1
        rw [eq_div_iff hne, k0]
      · funext d
        exact k1 d
  · intro beta k hk h
    obtain ⟨e, e1, e2, e3⟩ := comb .laguerre beta
    rw [PolyBasis.at_one] at e2
    simp only [mul_zero] at e2
    have hp' : ∑ d ∈ Finset.range (N + 1), C (e d) * PolyBasis.laguerre.poly d = C k :=
      Polynomial.funext fun s => by rw [← e3 s, h s, eval_C]
    have hz : ∑ d ∈ Finset.range (N + 1), C (e d - if d = 0 then k else 0) * PolyBasis.laguerre.poly d = 0 := by
      have : ∀ d, C (e d - if d = 0 then k else 0) * PolyBasis.laguerre.poly d =
          C (e d) * PolyBasis.laguerre.poly d - C (if d = 0 then k else 0) * PolyBasis.laguerre.poly d := by
        intro d; rw [C_sub, sub_mul]
      simp only [this, Finset.sum_sub_distrib]
      rw [hp', Finset.sum_range_succ']
      simp [PolyBasis.poly_zero]
    have := PolyBasis.laguerre.independent (N + 1) _ hz 0 (by omega)
    simp [e2] at this
    exact hk this

/-- The hypotheses of the bias theorems hold for the first columns of a model with the bias column and one input. -/
example : ∃ o : Fin 2 → ℕ, o 0 = 1 ∧ o 1 = 3 := ⟨![1, 3], rfl, rfl⟩

/-- The value of a model with Hermite polynomials and bias at the point 2: `3 * H1(1) + 1 * H1(2) = 6 + 4`. -/
example : ispaeValue Rnd.exact (PolyBasis.hermite.fn : ℕ → ℚ → ℚ) (fun _ => []) (fun _ : Fin 2 => 1)
      (fun c _ => if c = 0 then 3 else 1) (biasRow fun _ : Fin 1 => ⟨.classical, 2, 2⟩) = .ok ⟨.classical, 10, 10⟩ ∧
    ispaeValue Rnd.exact (PolyBasis.laguerre.fn : ℕ → ℚ → ℚ) (fun _ => []) (fun _ : Fin 2 => 1)
      (fun c _ => if c = 0 then 3 else 1) (biasRow fun _ : Fin 1 => ⟨.classical, 2, 2⟩) = .ok ⟨.classical, -1, -1⟩ := by
  constructor <;> decide +kernel

/-! ## C117: `fit` as a whole -/

/-- The inputs of the columns of the model: with the bias column in front, whose input is 1. -/
def colInput (bias : Bool) (t : ℕ → ℝ) (c : ℕ) : ℝ :=
  if bias then (match c with
    | 0 => 1
    | c + 1 => t c)
  else t c

/-- The model of `fit` at the inputs `t`. -/
noncomputable def modelFn (pb : PolyBasis) (bias : Bool) {C' : ℕ} {order : Fin C' → ℕ} (beta : Coeffs ℝ order)
    (t : ℕ → ℝ) : ℝ :=
  ∑ c, ∑ d, beta c d * (pb.poly (d + 1)).eval (colInput bias t c)

/-- The values of the model on a box of inputs with `C` entries. -/
def FnValues (C : ℕ) (pb : PolyBasis) (bias : Bool) {C' : ℕ} {order : Fin C' → ℕ} (beta : Coeffs ℝ order)
    (x : ℕ → Iv ℝ) (v : ℝ) : Prop :=
  ∃ t : ℕ → ℝ, (∀ c < C, t c ∈ x c) ∧ v = modelFn pb bias beta t

/-- A row of intervals as a function on all numbers. -/
def rowOf {C : ℕ} (x : Fin C → Iv ℝ) (c : ℕ) : Iv ℝ := if h : c < C then x ⟨c, h⟩ else ⟨.classical, 0, 0⟩

/-- The columns of the model for data with `C` columns. -/
def ColsOf (bias : Bool) (C C' : ℕ) : Prop := C' = if bias then C + 1 else C

/-- The values on the columns of `testRow` are the values of `modelFn`. -/
theorem fnValues_iff {C C' : ℕ} (pb : PolyBasis) (bias : Bool) (hC : ColsOf bias C C') {order : Fin C' → ℕ}
    (beta : Coeffs ℝ order) (x : ℕ → Iv ℝ) :
    ModelValues pb.fn beta (fun c : Fin C' => testRow bias x c) = FnValues C pb bias beta x := by
  funext v
  apply propext
  unfold ModelValues FnValues
  rw [pb.eval_poly]
  unfold ColsOf at hC
  cases bias with
  | false =>
      simp only [Bool.false_eq_true, if_false] at hC
      subst hC
      constructor
      · rintro ⟨t, ht, rfl⟩
        refine ⟨fun c => if h : c < C' then t ⟨c, h⟩ else 0, fun c hc => ?_, ?_⟩
        · simp only [dif_pos hc]
          exact ht ⟨c, hc⟩
        · simp [modelFn, colInput, colPoly]
      · rintro ⟨t, ht, rfl⟩
        exact ⟨fun c => t c, fun c => ht c c.isLt, by simp [modelFn, colInput, colPoly]⟩
  | true =>
      simp only [if_true] at hC
      subst hC
      constructor
      · rintro ⟨t, ht, rfl⟩
        refine ⟨fun c => if h : c + 1 < C + 1 then t ⟨c + 1, h⟩ else 0, fun c hc => ?_, ?_⟩
        · simp only [dif_pos (show c + 1 < C + 1 by omega)]
          exact ht ⟨c + 1, by omega⟩
        · unfold modelFn
          refine Finset.sum_congr rfl fun c _ => Finset.sum_congr rfl fun d _ => ?_
          congr 2
          obtain ⟨c, hc⟩ := c
          rcases c with _ | c
          · have := ht ⟨0, hc⟩
            exact le_antisymm this.2 this.1
          · simp [colInput, hc]
      · rintro ⟨t, ht, rfl⟩
        refine ⟨fun c => colInput true t c, fun c => ?_, rfl⟩
        obtain ⟨c, hc⟩ := c
        rcases c with _ | c
        · exact ⟨le_refl (1 : ℝ), le_refl (1 : ℝ)⟩
        · exact ht c (by omega)

/-- What `fit` has done when it does not raise. -/
theorem ispaeFit_ok {C : ℕ} {R : Rnd ℝ} {st : ℝ → ℝ} {P : (N : ℕ) → RalgPar ℝ N} {big alpha beta : ℝ} {pb : PolyBasis}
    {roots : (ℝ → ℝ) → List ℝ} {start : (N : ℕ) → Fin N → ℝ} {bias : Bool} {X : Fin m → Fin C → Iv ℝ} {y : List (Iv ℝ)}
    {order : OrderArg} {x0 weight : Option (List ℝ)} {objective : Option Bool} {norm : NormArg} {E : IspaeEst ℝ m}
    {w : List ℝ}
    (h : ispaeFit R st P big alpha beta pb roots start bias X y order x0 weight objective norm = .ok (E, w)) :
    ∃ S b0 r, ispaeSetup bias X y order = .ok S ∧ ispaeStart start x0 (∑ c, S.2.order c) = .ok b0 ∧
      fitWeights R st alpha beta m weight = .ok w ∧ w.length = m ∧
      ispaeVecCalcfg pb.fn roots objective norm { S.2 with weight := weightVec w } b0 = .ok r ∧
      E = ⟨S.1, { S.2 with weight := weightVec w },
        { ralgb5 (P _) big (fun x => orZero (ispaeVecCalcfg pb.fn roots objective norm
            { S.2 with weight := weightVec w } x)) b0 with
          fr := -(ralgb5 (P _) big (fun x => orZero (ispaeVecCalcfg pb.fn roots objective norm
            { S.2 with weight := weightVec w } x)) b0).fr }⟩ := by
  unfold ispaeFit at h
  split at h
  · cases h
  · next S hS =>
    split at h
    · cases h
    · next b0 hb0 =>
      split at h
      · cases h
      · next w' hw' =>
        split_ifs at h with hl
        dsimp only at h
        split at h
        · cases h
        · next r hr =>
          injection h with h
          obtain ⟨rfl, rfl⟩ := Prod.mk.inj h
          exact ⟨S, b0, r, hS, hb0, hw', not_not.1 hl, hr, rfl⟩

/-- The data after the setup. -/
theorem ispaeSetup_ok {C : ℕ} {bias : Bool} {X : Fin m → Fin C → Iv ℝ} {y : List (Iv ℝ)} {order : OrderArg}
    {S : IspaeCols ℝ m} (h : ispaeSetup bias X y order = .ok S) :
    0 < m ∧ y.length = m ∧ ColsOf bias C S.1 ∧ (∀ i, S.2.y i = y.getD i ⟨.classical, 0, 0⟩) ∧
      (∀ i c, S.2.x i c = testRow bias (rowOf (X i)) c) ∧ (∀ i c, (X i c).a ≤ (X i c).b) ∧ ∀ c, 0 < S.2.order c := by
  unfold ispaeSetup at h
  split at h
  · cases h
  · next l hl =>
    by_cases c1 : m = 0 ∨ (∀ k ∈ l, k ≤ 0) ∨
        ∃ i c, 0 < l.getD (if bias then c.val + 1 else c.val) 1 ∧ (X i c).b < (X i c).a
    · rw [if_pos c1] at h; cases h
    rw [if_neg c1] at h
    by_cases c2 : y.length ≠ m
    · rw [if_pos c2] at h; cases h
    rw [if_neg c2] at h
    by_cases c3 : ∃ k ∈ l, k < 1
    · rw [if_pos c3] at h; cases h
    rw [if_neg c3] at h
    injection h with h
    have hx : ∀ i c, (X i c).a ≤ (X i c).b := by
      intro i c
      by_contra hc
      refine c1 (Or.inr (Or.inr ⟨i, c, ?_, not_le.1 hc⟩))
      by_contra hk
      push Not at c3
      by_cases hlen : (if bias then c.val + 1 else c.val) < l.length
      · have := c3 _ (List.getElem_mem hlen)
        rw [List.getD_eq_getElem _ _ hlen] at hk
        omega
      · rw [List.getD_eq_default _ _ (not_lt.1 hlen)] at hk
        omega
    have ho : ∀ (C' : ℕ) (c : Fin C'), 0 < orderVec l c := by
      intro C' c
      push Not at c3
      unfold orderVec
      by_cases hlen : c.val < l.length
      · have := c3 _ (List.getElem_mem hlen)
        rw [List.getD_eq_getElem _ _ hlen]
        omega
      · rw [List.getD_eq_default _ _ (not_lt.1 hlen)]
        decide
    refine ⟨Nat.pos_of_ne_zero fun h0 => c1 (Or.inl h0), not_not.1 c2, ?_, ?_, ?_, hx, ?_⟩
    · cases bias <;> subst h <;> simp [ColsOf]
    · cases bias <;> subst h <;> simp
    · cases bias <;> subst h <;> intro i c
      · simp [testRow, rowOf]
      · obtain ⟨c, hc⟩ := c
        rcases c with _ | c
        · rfl
        · have hc' : c < C := by simpa using hc
          show biasRow (X i) ⟨c + 1, by omega⟩ = _
          simp only [testRow, if_true, rowOf, dif_pos hc']
          rfl
    · cases bias <;> subst h <;> intro c
      · exact ho _ c
      · exact ho _ c

/-- The largest (`Tol`) or least (`Uni`) distance of the values of the model from the midpoint of the output. -/
def RowDev (uni : Bool) (c : ℝ) (S : ℝ → Prop) (d : ℝ) : Prop :=
  if uni then IsLeast {e | ∃ v, S v ∧ e = |c - v|} d else IsGreatest {e | ∃ v, S v ∧ e = |c - v|} d

/-- The two norms: the least or the sum of the rows. -/
def NormOf (norm : NormArg) (r : Fin m → ℝ) (v : ℝ) : Prop :=
  match norm with
  | .inf => IsLeast {e | ∃ i, e = r i} v
  | .l1 => v = ∑ i, r i
  | .other => False

/-- The functional that `fit` should maximise, at the coefficients `beta`: per observation the weight times the radius
of the output minus the distance of the values of the model from its midpoint. -/
def FitObjective {C C' : ℕ} (pb : PolyBasis) (bias : Bool) (uni : Bool) (norm : NormArg) (X : Fin m → Fin C → Iv ℝ)
    (y : List (Iv ℝ)) (w : List ℝ) {order : Fin C' → ℕ} (beta : Coeffs ℝ order) (v : ℝ) : Prop :=
  ∃ dev : Fin m → ℝ,
    (∀ i : Fin m, RowDev uni (((y.getD i ⟨.classical, 0, 0⟩).a + (y.getD i ⟨.classical, 0, 0⟩).b) / 2)
      (FnValues C pb bias beta (rowOf (X i))) (dev i)) ∧
    NormOf norm (fun i : Fin m => w.getD i 0 *
      (((y.getD i ⟨.classical, 0, 0⟩).b - (y.getD i ⟨.classical, 0, 0⟩).a) / 2 - dev i)) v

theorem RowDev.unique {uni : Bool} {c d d' : ℝ} {S : ℝ → Prop} (h : RowDev uni c S d) (h' : RowDev uni c S d') :
    d = d' := by
  cases uni with
  | true => exact IsLeast.unique (by simpa [RowDev] using h) (by simpa [RowDev] using h')
  | false => exact IsGreatest.unique (by simpa [RowDev] using h) (by simpa [RowDev] using h')

/-- The functional has one value only. -/
theorem FitObjective.unique {C C' : ℕ} {pb : PolyBasis} {bias uni : Bool} {norm : NormArg} {X : Fin m → Fin C → Iv ℝ}
    {y : List (Iv ℝ)} {w : List ℝ} {order : Fin C' → ℕ} {beta : Coeffs ℝ order} {v v' : ℝ}
    (h : FitObjective pb bias uni norm X y w beta v) (h' : FitObjective pb bias uni norm X y w beta v') : v = v' := by
  obtain ⟨d, h1, h2⟩ := h
  obtain ⟨d', h1', h2'⟩ := h'
  have e : d = d' := funext fun i => (h1 i).unique (h1' i)
  subst e
  cases norm with
  | inf => exact IsLeast.unique h2 h2'
  | l1 => exact h2.trans h2'.symm
  | other => exact h2.elim

/-- The values of a model on a box are an interval. -/
theorem modelValues_icc {C : ℕ} (hC : 0 < C) (B : ℕ → ℝ[X]) (roots : (ℝ → ℝ) → List ℝ) (hr : RootsOK roots)
    {order : Fin C → ℕ} (beta : Coeffs ℝ order) (x : Fin C → Iv ℝ) (hx : ∀ c, (x c).a ≤ (x c).b) :
    let V := ispaeVal (fun d t => (B d).eval t) roots order beta x
    V.a ≤ V.b ∧ ∀ v, ModelValues (fun d t => (B d).eval t) beta x v ↔ v ∈ Set.Icc V.a V.b := by
  intro V
  obtain ⟨-, o, r⟩ := ispaeVal_range hC (fun d t => (B d).eval t) roots order beta x hx
    (columnsExact_real B roots hr beta _ hx)
  refine ⟨o.2, fun v => ⟨fun h => r.1 v h, fun hv => ?_⟩⟩
  obtain ⟨t1, ht1, e1⟩ := r.2.1
  obtain ⟨t2, ht2, e2⟩ := r.2.2
  let F : (Fin C → ℝ) → ℝ := fun t => ∑ c, ∑ d, beta c d * (B (d + 1)).eval (t c)
  have hcont : Continuous F := by
    refine continuous_finset_sum _ fun c _ => continuous_finset_sum _ fun d _ => ?_
    exact continuous_const.mul ((B (d + 1)).continuous.comp (continuous_apply c))
  have hpre : IsPreconnected (Set.pi Set.univ fun c => Set.Icc (x c).a (x c).b) :=
    isPreconnected_univ_pi fun c => isPreconnected_Icc
  have hv' : v ∈ Set.Icc (F t1) (F t2) := by
    have f1 : F t1 = V.a := e1.symm
    have f2 : F t2 = V.b := e2.symm
    rw [f1, f2]
    exact hv
  obtain ⟨t, ht, et⟩ := hpre.intermediate_value (a := t1) (b := t2) (fun c _ => ht1 c) (fun c _ => ht2 c)
    hcont.continuousOn hv'
  exact ⟨t, fun c => ht c (Set.mem_univ c), et.symm⟩

/-- The distances used by the residuals are those of `RowDev`. -/
theorem rowDev_icc (uni : Bool) (c a b : ℝ) (hab : a ≤ b) (S : ℝ → Prop) (hS : ∀ v, S v ↔ v ∈ Set.Icc a b) :
    RowDev uni c S (if uni then (if (c - b) * (c - a) ≤ 0 then 0 else min |c - b| |c - a|) else max |c - b| |c - a|) := by
  unfold RowDev
  cases uni with
  | false =>
      simp only [Bool.false_eq_true, if_false]
      constructor
      · rcases max_choice |c - b| |c - a| with h | h <;> rw [h]
        · exact ⟨b, (hS b).2 ⟨hab, le_refl _⟩, rfl⟩
        · exact ⟨a, (hS a).2 ⟨le_refl _, hab⟩, rfl⟩
      · rintro e ⟨v, hv, rfl⟩
        obtain ⟨h1, h2⟩ := (hS v).1 hv
        rw [abs_le]
        have k1 := le_max_left |c - b| |c - a|
        have k2 := le_max_right |c - b| |c - a|
        constructor
        · linarith [neg_abs_le (c - b)]
        · linarith [le_abs_self (c - a)]
  | true =>
      simp only [if_true]
      split_ifs with hz
      · have hc : a ≤ c ∧ c ≤ b := by
          constructor
          · by_contra hc
            have := mul_pos_of_neg_of_neg (show c - b < 0 by linarith [not_le.1 hc]) (sub_neg.2 (not_le.1 hc))
            linarith
          · by_contra hc
            have := mul_pos (sub_pos.2 (not_le.1 hc)) (show 0 < c - a by linarith [not_le.1 hc])
            linarith
        refine ⟨⟨c, (hS c).2 hc, by simp⟩, ?_⟩
        rintro e ⟨v, -, rfl⟩
        exact abs_nonneg _
      · rw [not_le] at hz
        rcases pos_and_pos_or_neg_and_neg_of_mul_pos hz with ⟨h1, h2⟩ | ⟨h1, h2⟩
        · rw [abs_of_pos h1, abs_of_pos h2, min_eq_left (by linarith)]
          refine ⟨⟨b, (hS b).2 ⟨hab, le_refl _⟩, (abs_of_pos h1).symm⟩, ?_⟩
          rintro e ⟨v, hv, rfl⟩
          have := ((hS v).1 hv).2
          exact le_trans (by linarith) (le_abs_self _)
        · rw [abs_of_neg h1, abs_of_neg h2, min_eq_right (by linarith)]
          refine ⟨⟨a, (hS a).2 ⟨le_refl _, hab⟩, (abs_of_neg h2).symm⟩, ?_⟩
          rintro e ⟨v, hv, rfl⟩
          have := ((hS v).1 hv).1
          exact le_trans (by linarith) (neg_le_abs _)

/-- The function given to the optimiser is minus the functional. -/
theorem fitObjective_calcfg {C : ℕ} {pb : PolyBasis} {roots : (ℝ → ℝ) → List ℝ} (hr : RootsOK roots) {bias : Bool}
    {X : Fin m → Fin C → Iv ℝ} {y : List (Iv ℝ)} {order : OrderArg} {S : IspaeCols ℝ m}
    (hS : ispaeSetup bias X y order = .ok S) (uni : Bool) (norm : NormArg) (w : List ℝ)
    (b : Coeffs ℝ S.2.order) (f : ℝ) (g : Coeffs ℝ S.2.order)
    (h : ispaeCalcfg pb.fn roots (some uni) norm { S.2 with weight := weightVec w } b = .ok (f, g)) :
    FitObjective pb bias uni norm X y w b (-f) := by
  obtain ⟨hm, hy, hC, ey, ex, hX, -⟩ := ispaeSetup_ok hS
  unfold ispaeCalcfg at h
  by_cases c1 : ∃ i c, (S.2.x i c).b < (S.2.x i c).a
  · rw [if_pos c1] at h; cases h
  rw [if_neg c1] at h
  dsimp only at h
  by_cases c2 : S.1 = 0
  · rw [if_pos c2] at h; cases h
  rw [if_neg c2] at h
  have hx : ∀ i c, (S.2.x i c).a ≤ (S.2.x i c).b := fun i c => not_lt.1 fun hc => c1 ⟨i, c, hc⟩
  -- the rows
  have rows : ∃ dev : Fin m → ℝ,
      (∀ i : Fin m, RowDev uni (((y.getD i ⟨.classical, 0, 0⟩).a + (y.getD i ⟨.classical, 0, 0⟩).b) / 2)
        (FnValues C pb bias b (rowOf (X i))) (dev i)) ∧
      ∀ i : Fin m, ispaeResidual pb.fn roots uni { S.2 with weight := weightVec w } b i = w.getD i 0 *
        (((y.getD i ⟨.classical, 0, 0⟩).b - (y.getD i ⟨.classical, 0, 0⟩).a) / 2 - dev i) := by
    refine ⟨fun i => let c := ispaeCentered pb.fn roots { S.2 with weight := weightVec w } b i
      if uni then (if c.a * c.b ≤ 0 then 0 else min |c.a| |c.b|) else max |c.a| |c.b|, fun i => ?_, fun i => ?_⟩
    · obtain ⟨e1, e2⟩ := ispaeCentered_ends pb.fn roots { S.2 with weight := weightVec w } b i
      dsimp only at e1 e2 ⊢
      rw [e1, e2]
      have em : (S.2.y i).mid Rnd.exact = ((y.getD i ⟨.classical, 0, 0⟩).a + (y.getD i ⟨.classical, 0, 0⟩).b) / 2 := by
        rw [ey]
        simp only [Iv.mid, Rnd.exact_nr, id]
        ring
      rw [em]
      have icc := modelValues_icc (Nat.pos_of_ne_zero c2) pb.poly roots hr b (S.2.x i) (hx i)
      rw [← pb.eval_poly] at icc
      refine rowDev_icc uni _ _ _ icc.1 _ fun v => ?_
      rw [← icc.2 v, ← fnValues_iff pb bias hC b (rowOf (X i))]
      have : (fun c : Fin S.1 => testRow bias (rowOf (X i)) c) = S.2.x i := funext fun c => (ex i c).symm
      rw [this]
    · rw [ispaeResidual]
      have er : (S.2.y i).rad Rnd.exact = ((y.getD i ⟨.classical, 0, 0⟩).b - (y.getD i ⟨.classical, 0, 0⟩).a) / 2 := by
        rw [ey]
        simp only [Iv.rad, Iv.wid, Rnd.exact_nr, id]
        ring
      dsimp only
      rw [er]
      rfl
  obtain ⟨dev, h1, h2⟩ := rows
  refine ⟨dev, h1, ?_⟩
  have e : ispaeResidual pb.fn roots uni { S.2 with weight := weightVec w } b = fun i : Fin m => w.getD i 0 *
        (((y.getD i ⟨.classical, 0, 0⟩).b - (y.getD i ⟨.classical, 0, 0⟩).a) / 2 - dev i) := funext h2
  rw [e] at h
  cases norm with
  | other => simp [wrapNorm] at h
  | l1 =>
      simp only [wrapNorm] at h
      injection h with h
      obtain ⟨rfl, -⟩ := Prod.mk.inj h
      simp only [NormOf, neg_neg]
  | inf =>
      simp only [wrapNorm] at h
      obtain ⟨k, hk, hmin⟩ := npArgmin_ok hm (fun i : Fin m => w.getD i 0 *
        (((y.getD i ⟨.classical, 0, 0⟩).b - (y.getD i ⟨.classical, 0, 0⟩).a) / 2 - dev i))
      rw [hk] at h
      injection h with h
      obtain ⟨rfl, -⟩ := Prod.mk.inj h
      refine ⟨⟨k, by rw [neg_neg]⟩, ?_⟩
      rintro e ⟨i, rfl⟩
      rw [neg_neg]
      exact hmin i

/-- Whether the objective raises does not depend on the coefficients. -/
theorem ispaeCalcfg_total {C : ℕ} {basis : ℕ → ℝ → ℝ} {roots : (ℝ → ℝ) → List ℝ} {objective : Option Bool}
    {norm : NormArg} {D : IspaeData ℝ m C} {b : Coeffs ℝ D.order} {r : ℝ × Coeffs ℝ D.order}
    (h : ispaeCalcfg basis roots objective norm D b = .ok r) (b' : Coeffs ℝ D.order) :
    ∃ r', ispaeCalcfg basis roots objective norm D b' = .ok r' := by
  unfold ispaeCalcfg at h ⊢
  by_cases c1 : ∃ i c, (D.x i c).b < (D.x i c).a
  · rw [if_pos c1] at h; cases h
  rw [if_neg c1] at h ⊢
  cases objective with
  | none => cases h
  | some uni =>
      dsimp only at h ⊢
      by_cases c2 : C = 0
      · rw [if_pos c2] at h; cases h
      rw [if_neg c2] at h ⊢
      cases norm with
      | other => simp [wrapNorm] at h
      | l1 => exact ⟨_, rfl⟩
      | inf =>
          simp only [wrapNorm] at h ⊢
          rcases Nat.eq_zero_or_pos m with h0 | hm
          · subst h0
            simp [npArgmin] at h
          · obtain ⟨k, hk, -⟩ := npArgmin_ok hm (ispaeResidual basis roots uni D b')
            rw [hk]
            exact ⟨_, rfl⟩

/-- C117: the estimator reports the value of the functional at its coefficients, which is at least the value at the
initial guess; the data keep their number of columns plus the bias column. -/
theorem C117_fit {C : ℕ} {R : Rnd ℝ} {st : ℝ → ℝ} {P : (N : ℕ) → RalgPar ℝ N} {big alpha beta : ℝ} {pb : PolyBasis}
    {roots : (ℝ → ℝ) → List ℝ} (hr : RootsOK roots) {start : (N : ℕ) → Fin N → ℝ} {bias : Bool}
    {X : Fin m → Fin C → Iv ℝ} {y : List (Iv ℝ)}
    {order : OrderArg} {x0 weight : Option (List ℝ)} {objective : Option Bool} {norm : NormArg} {E : IspaeEst ℝ m}
    {w : List ℝ}
    (h : ispaeFit R st P big alpha beta pb roots start bias X y order x0 weight objective norm = .ok (E, w)) :
    ∃ uni, objective = some uni ∧ ColsOf bias C E.C ∧
      FitObjective pb bias uni norm X y w (coeffsOf E.data.order E.est.xr) E.est.fr ∧
      ∀ b0, ispaeStart start x0 (∑ c, E.data.order c) = .ok b0 → ∀ v0,
        FitObjective pb bias uni norm X y w (coeffsOf E.data.order b0) v0 → v0 ≤ E.est.fr := by
  obtain ⟨S, b0, r, hS, hb0, hw, hl, hc, rfl⟩ := ispaeFit_ok h
  unfold ispaeVecCalcfg at hc
  cases hc0 : ispaeCalcfg pb.fn roots objective norm { S.2 with weight := weightVec w } (coeffsOf S.2.order b0) with
  | error e => rw [hc0] at hc; cases hc
  | ok r0 =>
    have hobj : ∃ uni, objective = some uni := by
      cases objective with
      | some uni => exact ⟨uni, rfl⟩
      | none =>
          unfold ispaeCalcfg at hc0
          split_ifs at hc0
    obtain ⟨uni, rfl⟩ := hobj
    refine ⟨uni, rfl, (ispaeSetup_ok hS).2.2.1, ?_⟩
    have val : ∀ x : Fin (∑ c, S.2.order c) → ℝ, FitObjective pb bias uni norm X y w (coeffsOf S.2.order x)
        (-(orZero (ispaeVecCalcfg pb.fn roots (some uni) norm { S.2 with weight := weightVec w } x)).1) := by
      intro x
      obtain ⟨r', hr'⟩ := ispaeCalcfg_total hc0 (coeffsOf S.2.order x)
      have := fitObjective_calcfg hr hS uni norm w (coeffsOf S.2.order x) r'.1 r'.2 hr'
      unfold ispaeVecCalcfg
      dsimp only
      rw [hr']
      exact this
    obtain ⟨⟨_, q2, _, q4⟩, _⟩ := C35_ralgb5 (P (∑ c, S.2.order c)) big (fun x => orZero (ispaeVecCalcfg pb.fn roots
      (some uni) norm { S.2 with weight := weightVec w } x)) b0
    constructor
    · dsimp only
      rw [q2]
      exact val _
    · intro b0' hb0' v0 hv0
      dsimp only at hb0' hv0 ⊢
      rw [hb0] at hb0'
      cases hb0'
      rw [hv0.unique (val b0)]
      linarith

/-- Positive weights stay positive. -/
theorem fitWeights_pos {alpha beta : ℝ} (ha : 0 ≤ alpha) (ha1 : alpha < 1) (hb : 0 < beta) {weight : Option (List ℝ)}
    (hwt : ∀ l, weight = some l → ∀ t ∈ l, 0 < t) {w : List ℝ} (hw : fitWeights Rnd.exact id alpha beta m weight = .ok w)
    (hl : w.length = m) (i : Fin m) : 0 < w.getD i 0 := by
  have all : ∀ t ∈ w, 0 < t := by
    unfold fitWeights at hw
    cases weight with
    | none =>
        dsimp only at hw
        split_ifs at hw
        injection hw with hw
        subst hw
        exact C77_positive alpha beta ha ha1 hb _ (by intro t ht; rw [List.eq_of_mem_replicate ht]; exact one_pos)
    | some l =>
        dsimp only at hw
        split_ifs at hw
        injection hw with hw
        subst hw
        intro t ht
        rcases List.mem_append.1 ht with ht | ht
        · exact C77_positive alpha beta ha ha1 hb _ (fun t ht => hwt l rfl t (List.mem_of_mem_take ht)) t ht
        · exact hwt l rfl t (List.mem_of_mem_drop ht)
  have hi : i.val < w.length := by rw [hl]; exact i.isLt
  rw [List.getD_eq_getElem _ _ hi]
  exact all _ (List.getElem_mem hi)

/-- C117: with positive weights, `0 <= alpha < 1` and `beta > 0`, the value reported for the norm `inf` is nonnegative
exactly when the fitted model is compatible with the data: for `Tol` all values of the model on every training box lie
in the output, for `Uni` some value does. -/
theorem C117_compatible {C : ℕ} {P : (N : ℕ) → RalgPar ℝ N} {big alpha beta : ℝ} (ha : 0 ≤ alpha) (ha1 : alpha < 1)
    (hb : 0 < beta) {pb : PolyBasis}
    {roots : (ℝ → ℝ) → List ℝ} (hr : RootsOK roots) {start : (N : ℕ) → Fin N → ℝ} {bias : Bool}
    {X : Fin m → Fin C → Iv ℝ} {y : List (Iv ℝ)} (hy : ∀ Y ∈ y, Y.a ≤ Y.b)
    {order : OrderArg} {x0 weight : Option (List ℝ)} (hwt : ∀ l, weight = some l → ∀ t ∈ l, 0 < t) {uni : Bool}
    {E : IspaeEst ℝ m} {w : List ℝ}
    (h : ispaeFit Rnd.exact id P big alpha beta pb roots start bias X y order x0 weight (some uni) .inf = .ok (E, w)) :
    0 ≤ E.est.fr ↔ ∀ (i : ℕ) (Y : Iv ℝ), y[i]? = some Y → ∀ hi : i < m,
      if uni then ∃ t : ℕ → ℝ, (∀ c : Fin C, t c ∈ X ⟨i, hi⟩ c) ∧ modelFn pb bias (coeffsOf E.data.order E.est.xr) t ∈ Y
      else ∀ t : ℕ → ℝ, (∀ c : Fin C, t c ∈ X ⟨i, hi⟩ c) → modelFn pb bias (coeffsOf E.data.order E.est.xr) t ∈ Y := by
  obtain ⟨uni', e, -, ⟨dev, h1, h2⟩, -⟩ := C117_fit hr h
  cases e
  obtain ⟨S, b0, r, hS, -, hw, hl, -, -⟩ := ispaeFit_ok h
  obtain ⟨hm, hlen, -⟩ := ispaeSetup_ok hS
  have pos := fitWeights_pos ha ha1 hb hwt hw hl
  have step1 : 0 ≤ E.est.fr ↔ ∀ i : Fin m,
      dev i ≤ ((y.getD i ⟨.classical, 0, 0⟩).b - (y.getD i ⟨.classical, 0, 0⟩).a) / 2 := by
    obtain ⟨⟨k, hk⟩, hmin⟩ := h2
    constructor
    · intro h0 i
      have := h0.trans (hmin ⟨i, rfl⟩)
      have := (mul_nonneg_iff_of_pos_left (pos i)).1 this
      linarith
    · intro hall
      rw [hk]
      exact mul_nonneg (pos k).le (by linarith [hall k])
  have row : ∀ i : Fin m, ∀ t : ℕ → ℝ, (∀ c : Fin C, t c ∈ X i c) ↔ ∀ c < C, t c ∈ rowOf (X i) c := by
    intro i t
    constructor
    · intro h c hc
      rw [rowOf, dif_pos hc]
      exact h ⟨c, hc⟩
    · intro h c
      have := h c c.isLt
      rwa [rowOf, dif_pos c.isLt] at this
  have near : ∀ Y : Iv ℝ, ∀ v : ℝ, |(Y.a + Y.b) / 2 - v| ≤ (Y.b - Y.a) / 2 ↔ v ∈ Y := by
    intro Y v
    rw [abs_le]
    constructor
    · rintro ⟨k1, k2⟩
      exact ⟨by linarith, by linarith⟩
    · rintro ⟨k1, k2⟩
      constructor <;> linarith
  rw [step1]
  have step2 : ∀ i : Fin m, (dev i ≤ ((y.getD i ⟨.classical, 0, 0⟩).b - (y.getD i ⟨.classical, 0, 0⟩).a) / 2) ↔
      if uni then ∃ t : ℕ → ℝ, (∀ c : Fin C, t c ∈ X i c) ∧
        modelFn pb bias (coeffsOf E.data.order E.est.xr) t ∈ y.getD i ⟨.classical, 0, 0⟩
      else ∀ t : ℕ → ℝ, (∀ c : Fin C, t c ∈ X i c) →
        modelFn pb bias (coeffsOf E.data.order E.est.xr) t ∈ y.getD i ⟨.classical, 0, 0⟩ := by
    intro i
    have := h1 i
    cases uni with
    | true =>
        simp only [RowDev, if_true] at this ⊢
        constructor
        · intro hle
          obtain ⟨v, ⟨t, ht, rfl⟩, e⟩ := this.1
          rw [e, near] at hle
          exact ⟨t, (row i t).2 ht, hle⟩
        · rintro ⟨t, ht, hv⟩
          exact (this.2 ⟨_, ⟨t, (row i t).1 ht, rfl⟩, rfl⟩).trans ((near _ _).2 hv)
    | false =>
        simp only [RowDev, Bool.false_eq_true, if_false] at this ⊢
        constructor
        · intro hle t ht
          rw [← near]
          exact (this.2 ⟨_, ⟨t, (row i t).1 ht, rfl⟩, rfl⟩).trans hle
        · intro hall
          obtain ⟨v, ⟨t, ht, rfl⟩, e⟩ := this.1
          rw [e, near]
          exact hall t ((row i t).2 ht)
  constructor
  · intro hall i Y hY hi
    have := (step2 ⟨i, hi⟩).1 (hall ⟨i, hi⟩)
    rwa [List.getD_eq_getElem?_getD, hY, Option.getD_some] at this
  · intro hall i
    rw [step2]
    have hi : i.val < y.length := by rw [hlen]; exact i.isLt
    have := hall i _ (List.getElem?_eq_getElem hi) i.isLt
    rwa [List.getD_eq_getElem _ _ hi]

/-- C117: the prediction of the fitted model encloses its values on the box of inputs. -/
theorem C117_predict {C : ℕ} {R R' : Rnd ℝ} {st : ℝ → ℝ} {P : (N : ℕ) → RalgPar ℝ N} {big alpha beta : ℝ}
    {pb : PolyBasis} {roots : (ℝ → ℝ) → List ℝ} (hr : RootsOK roots) {start : (N : ℕ) → Fin N → ℝ} {bias : Bool}
    {X : Fin m → Fin C → Iv ℝ} {y : List (Iv ℝ)}
    {order : OrderArg} {x0 weight : Option (List ℝ)} {objective : Option Bool} {norm : NormArg} {E : IspaeEst ℝ m}
    {w : List ℝ}
    (h : ispaeFit R st P big alpha beta pb roots start bias X y order x0 weight objective norm = .ok (E, w))
    (x : ℕ → Iv ℝ) (hx : ∀ c < C, (x c).a ≤ (x c).b) :
    ∃ V, ispaePredictEst R' pb roots bias E x = .ok V ∧ Ordinary V ∧
      ∀ t : ℕ → ℝ, (∀ c < C, t c ∈ x c) → modelFn pb bias (coeffsOf E.data.order E.est.xr) t ∈ V := by
  obtain ⟨S, b0, r, hS, -, -, -, hc, hE⟩ := ispaeFit_ok h
  obtain ⟨-, -, hC, -, -, -, ho⟩ := ispaeSetup_ok hS
  have hpos : 0 < S.1 := by
    refine Nat.pos_of_ne_zero fun h0 => ?_
    unfold ispaeVecCalcfg ispaeCalcfg at hc
    by_cases c1 : ∃ i c, (S.2.x i c).b < (S.2.x i c).a
    · rw [if_pos c1] at hc; cases hc
    rw [if_neg c1] at hc
    cases objective with
    | none => cases hc
    | some uni =>
        dsimp only at hc
        rw [if_pos h0] at hc
        cases hc
  have hrow : ∀ c : Fin S.1, (testRow bias x c).a ≤ (testRow bias x c).b := by
    rintro ⟨c, hc⟩
    unfold ColsOf at hC
    cases bias with
    | false =>
        simp only [Bool.false_eq_true, if_false] at hC
        exact hx c (by omega)
    | true =>
        simp only [if_true] at hC
        rcases c with _ | c
        · exact le_refl (1 : ℝ)
        · exact hx c (by omega)
  subst hE
  obtain ⟨V, h1, h2, h3, -⟩ := C54_predict pb.poly roots hr R' S.2.order ⟨⟨0, hpos⟩, ho _⟩
    (coeffsOf S.2.order (ralgb5 (P _) big (fun x => orZero (ispaeVecCalcfg pb.fn roots objective norm
            { S.2 with weight := weightVec w } x)) b0).xr) (fun c : Fin S.1 => testRow bias x c) hrow
  rw [← pb.eval_poly] at h1 h3
  refine ⟨V, h1, h2, fun t ht => h3 _ ?_⟩
  rw [fnValues_iff pb bias hC]
  exact ⟨t, ht, rfl⟩

/-- A fit with the bias column: the input is the point 2, the output is `[3, 5]`; the initial guess has the value 3, the
optimiser moves away from the border of the output, so that the estimator reports a positive value. -/
example : (ispaeFit (Rnd.exact : Rnd ℚ) id (fun N => ⟨1 / 10, 1 / 10, 1 / 10, 1, 2, 30, 1 / 3, 3, 1 / 2, 2,
      fun g => ∑ i, |g i|, fun g j => g j / ∑ i, |g i|⟩) 1000 0 1 .monom (fun _ => [])
      (fun _ _ => 0) true (fun (_ : Fin 1) (_ : Fin 1) => ⟨.classical, 2, 2⟩) [⟨.classical, 3, 5⟩] (.one 1) (some [1, 1])
      none (some false) .inf).map (fun r => decide (0 < r.1.est.fr)) = .ok true := by
  decide +kernel

/-- Two rows: three weights raise `ValueError`, one weight `IndexError`. -/
example : ∀ w ∈ [([1, 1, 1], Err.valueError), ([1], Err.indexError)], (ispaeFit (Rnd.exact : Rnd ℚ) id
      (fun N => ⟨1 / 10, 1 / 10, 1 / 10, 1, 2, 30, 1 / 3, 3, 1 / 2, 2,
      fun g => ∑ i, |g i|, fun g j => g j / ∑ i, |g i|⟩) 1000 0 1 .monom (fun _ => [])
      (fun _ _ => 0) true (fun (_ : Fin 2) (_ : Fin 1) => ⟨.classical, 2, 2⟩) [⟨.classical, 3, 5⟩, ⟨.classical, 3, 5⟩] (.one 1)
      (some [1, 1]) (some w.1) (some false) .inf).map (fun _ => ()) = .error w.2 := by
  decide +kernel

/-! ### When `fit` returns -/

/-- The orders are at least 1, and there is one for every column. -/
def GoodOrders (C : ℕ) : OrderArg → Prop
  | .one k => C = 0 ∨ 1 ≤ k
  | .many l => l.length = C ∧ ∀ k ∈ l, 1 ≤ k

/-- The number of coefficients of the model: the sum of the orders, and one more for the bias. -/
def numCoeffs (bias : Bool) (C : ℕ) (order : OrderArg) : ℤ :=
  (if bias then 1 else 0) + match order with
    | .one k => C * k
    | .many l => l.sum

theorem sum_orderVec (l : List ℤ) (hl : ∀ k ∈ l, 1 ≤ k) (C : ℕ) (h : l.length = C) :
    ((∑ c : Fin C, orderVec l c : ℕ) : ℤ) = l.sum := by
  subst h
  rw [← Fin.sum_univ_getElem, Nat.cast_sum]
  refine Finset.sum_congr rfl fun c _ => ?_
  unfold orderVec
  rw [List.getD_eq_getElem _ _ c.isLt]
  have := hl _ (List.getElem_mem c.isLt)
  rw [Int.toNat_of_nonneg (by omega)]

/-- The list of orders: those of the data, after the one of the bias. -/
theorem ispaeOrders_ok {bias : Bool} {C : ℕ} {order : OrderArg} {l : List ℤ} (h : ispaeOrders bias C order = .ok l) :
    l.length = (if bias then C + 1 else C) ∧ l.sum = numCoeffs bias C order ∧ ((∀ k ∈ l, 1 ≤ k) ↔ GoodOrders C order) := by
  unfold ispaeOrders at h
  cases order with
  | one k =>
      injection h with h
      subst h
      have hk : (∀ j ∈ List.replicate C k, 1 ≤ j) ↔ C = 0 ∨ 1 ≤ k := by
        rcases Nat.eq_zero_or_pos C with h0 | h0
        · subst h0; simp
        · simp [List.mem_replicate, Nat.pos_iff_ne_zero.1 h0]
      cases bias
      · refine ⟨by simp, by simp [numCoeffs], ?_⟩
        simpa [GoodOrders] using hk
      · simp only [if_true, List.length_cons, List.length_replicate, List.sum_cons, List.sum_replicate, numCoeffs,
          nsmul_eq_mul, List.forall_mem_cons, hk, GoodOrders]
        simp
  | many l0 =>
      dsimp only at h
      split_ifs at h with h0 hb
      · injection h with h
        subst h
        simp [numCoeffs, GoodOrders, h0, hb]
      · injection h with h
        subst h
        simp [numCoeffs, GoodOrders, h0, hb]

theorem ispaeSetup_order {C : ℕ} {bias : Bool} {X : Fin m → Fin C → Iv ℝ} {y : List (Iv ℝ)} {order : OrderArg}
    {S : IspaeCols ℝ m} (h : ispaeSetup bias X y order = .ok S) :
    ((∑ c, S.2.order c : ℕ) : ℤ) = numCoeffs bias C order ∧ GoodOrders C order := by
  unfold ispaeSetup at h
  split at h
  · cases h
  · next l hl =>
    obtain ⟨k1, k2, k3⟩ := ispaeOrders_ok hl
    split_ifs at h with c1 c2 c3 c4 c5 c6
    all_goals (injection h with h; subst h)
    · have hl1 : ∀ k ∈ l, 1 ≤ k := by simpa using c4
      rw [if_pos c1] at k1
      exact ⟨(sum_orderVec l hl1 (C + 1) k1).trans k2, k3.1 hl1⟩
    · have hl1 : ∀ k ∈ l, 1 ≤ k := by
        intro k hk
        by_contra hc
        rename_i c7
        exact c7 ⟨k, hk, by omega⟩
      rw [if_neg c1] at k1
      exact ⟨(sum_orderVec l hl1 C k1).trans k2, k3.1 hl1⟩

theorem ispaeSetup_ok_iff {C : ℕ} (bias : Bool) (X : Fin m → Fin C → Iv ℝ) (y : List (Iv ℝ)) (order : OrderArg) :
    (∃ S, ispaeSetup bias X y order = .ok S) ↔
      (0 < m ∧ (0 < C ∨ bias = true) ∧ y.length = m ∧ (∀ i c, (X i c).a ≤ (X i c).b) ∧ GoodOrders C order) := by
  constructor
  · rintro ⟨S, hS⟩
    obtain ⟨h1, h2, -, -, -, h3, -⟩ := ispaeSetup_ok hS
    refine ⟨h1, ?_, h2, h3, (ispaeSetup_order hS).2⟩
    by_contra hc
    push Not at hc
    obtain ⟨hC, hb⟩ := hc
    have hC : C = 0 := by omega
    subst hC
    have hb : bias = false := by simpa using hb
    subst hb
    unfold ispaeSetup at hS
    split at hS
    · cases hS
    · next l hl =>
      have hl0 : l = [] := by
        have := (ispaeOrders_ok hl).1
        simpa using this
      subst hl0
      rw [if_pos (Or.inr (Or.inl (by simp)))] at hS
      cases hS
  · rintro ⟨h1, h2, h3, h4, h5⟩
    have ho : ∃ l, ispaeOrders bias C order = .ok l := by
      unfold ispaeOrders
      cases order with
      | one k => exact ⟨_, rfl⟩
      | many l0 =>
          dsimp only
          rw [if_pos h5.1]
          exact ⟨_, rfl⟩
    obtain ⟨l, hl⟩ := ho
    obtain ⟨k1, -, k3⟩ := ispaeOrders_ok hl
    have hl1 := k3.2 h5
    unfold ispaeSetup
    rw [hl]
    dsimp only
    rw [if_neg, if_neg (not_not.2 h3), if_neg]
    · exact ⟨_, rfl⟩
    · rintro ⟨k, hk, hlt⟩
      have := hl1 k hk
      omega
    · rintro (h0 | h0 | ⟨i, c, -, hc⟩)
      · omega
      · have hlen : 0 < l.length := by
          rw [k1]
          rcases h2 with h2 | h2
          · split_ifs <;> omega
          · rw [if_pos h2]; omega
        have e1 := h0 _ (List.getElem_mem hlen)
        have e2 := hl1 _ (List.getElem_mem hlen)
        omega
      · exact absurd hc (not_lt.2 (h4 i c))

/-- C117: `fit` returns exactly when there are observations and a column, the outputs, the weights (if given) and the
orders (if a sequence) have the right numbers of entries, no input is improper, the orders are at least 1, a given
initial guess has one entry per coefficient, and the objective and the norm are among the documented ones. -/
theorem C117_returns_iff {C : ℕ} (R : Rnd ℝ) (st : ℝ → ℝ) (P : (N : ℕ) → RalgPar ℝ N) (big alpha beta : ℝ)
    (pb : PolyBasis) (roots : (ℝ → ℝ) → List ℝ) (start : (N : ℕ) → Fin N → ℝ) (bias : Bool) (X : Fin m → Fin C → Iv ℝ)
    (y : List (Iv ℝ)) (order : OrderArg) (x0 weight : Option (List ℝ)) (objective : Option Bool) (norm : NormArg) :
    (∃ r, ispaeFit R st P big alpha beta pb roots start bias X y order x0 weight objective norm = .ok r) ↔
      (0 < m ∧ (0 < C ∨ bias = true) ∧ y.length = m ∧ (∀ i c, (X i c).a ≤ (X i c).b) ∧ GoodOrders C order) ∧
      (∀ v, x0 = some v → (v.length : ℤ) = numCoeffs bias C order) ∧ (∀ l, weight = some l → l.length = m) ∧
      objective ≠ none ∧ norm ≠ .other := by
  rw [← ispaeSetup_ok_iff]
  have smooth_len : ∀ (w : List ℝ), (smooth R st alpha beta w).length = w.length ∧
      (smooth R id alpha beta w).length = w.length := by
    have : ∀ (f : ℝ → ℝ) (w : List ℝ) (p : ℝ), (smoothFrom R f alpha beta p w).length = w.length := by
      intro f w
      induction w with
      | nil => intro p; rfl
      | cons s ss ih => intro p; simp [smoothFrom, ih]
    intro w
    cases w with
    | nil => exact ⟨rfl, rfl⟩
    | cons s ss => constructor <;> simp [smooth, this]
  have weights : 0 < m → ((∃ w, fitWeights R st alpha beta m weight = .ok w ∧ w.length = m) ↔
      ∀ l, weight = some l → l.length = m) := by
    intro hm
    unfold fitWeights
    cases weight with
    | none =>
        dsimp only
        rw [if_neg (by omega)]
        simp [(smooth_len _).2]
    | some l =>
        dsimp only
        constructor
        · rintro ⟨w, hw, hl⟩ l' e
          cases e
          split_ifs at hw with hc
          injection hw with hw
          subst hw
          push Not at hc
          rw [List.length_append, (smooth_len _).1, List.length_take, List.length_drop] at hl
          omega
        · intro h
          have hl := h l rfl
          rw [if_neg (by push Not; exact ⟨by omega, by omega⟩)]
          refine ⟨_, rfl, ?_⟩
          rw [List.length_append, (smooth_len _).1, List.length_take, List.length_drop]
          omega
  constructor
  · rintro ⟨⟨E, w⟩, h⟩
    obtain ⟨S, b0, r, hS, hb0, hw, hl, hc, -⟩ := ispaeFit_ok h
    refine ⟨⟨S, hS⟩, ?_, (weights (ispaeSetup_ok hS).1).1 ⟨w, hw, hl⟩, ?_, ?_⟩
    · rintro v rfl
      unfold ispaeStart at hb0
      dsimp only at hb0
      split_ifs at hb0 with hv
      rw [hv, (ispaeSetup_order hS).1]
    · rintro rfl
      unfold ispaeVecCalcfg ispaeCalcfg at hc
      by_cases c1 : ∃ i c, (S.2.x i c).b < (S.2.x i c).a
      · rw [if_pos c1] at hc; cases hc
      · rw [if_neg c1] at hc; cases hc
    · rintro rfl
      unfold ispaeVecCalcfg ispaeCalcfg at hc
      by_cases c1 : ∃ i c, (S.2.x i c).b < (S.2.x i c).a
      · rw [if_pos c1] at hc; cases hc
      rw [if_neg c1] at hc
      cases objective with
      | none => cases hc
      | some uni =>
          dsimp only at hc
          by_cases c2 : S.1 = 0
          · rw [if_pos c2] at hc; cases hc
          · rw [if_neg c2] at hc
            simp [wrapNorm] at hc
  · rintro ⟨⟨S, hS⟩, hx0, hwt, hobj, hnorm⟩
    obtain ⟨hm, -, hC, -, ex, hX, -⟩ := ispaeSetup_ok hS
    obtain ⟨w, hw, hl⟩ := (weights hm).2 hwt
    obtain ⟨-, hpos, -⟩ := (ispaeSetup_ok_iff bias X y order).1 ⟨S, hS⟩
    have hstart : ∃ b0, ispaeStart start x0 (∑ c, S.2.order c) = .ok b0 := by
      unfold ispaeStart
      cases x0 with
      | none => exact ⟨_, rfl⟩
      | some v =>
          dsimp only
          rw [if_pos]
          · exact ⟨_, rfl⟩
          · have := hx0 v rfl
            rw [← (ispaeSetup_order hS).1] at this
            exact_mod_cast this
    obtain ⟨b0, hb0⟩ := hstart
    have hcalc : ∃ r, ispaeVecCalcfg pb.fn roots objective norm { S.2 with weight := weightVec w } b0 = .ok r := by
      unfold ispaeVecCalcfg ispaeCalcfg
      have c1 : ¬ ∃ i c, (S.2.x i c).b < (S.2.x i c).a := by
        rintro ⟨i, c, hc⟩
        rw [ex] at hc
        unfold ColsOf at hC
        have row : ∀ k, (rowOf (X i) k).a ≤ (rowOf (X i) k).b := by
          intro k
          unfold rowOf
          split_ifs
          · exact hX i _
          · exact le_refl (0 : ℝ)
        have : (testRow bias (rowOf (X i)) c).a ≤ (testRow bias (rowOf (X i)) c).b := by
          unfold testRow
          cases bias with
          | false => exact row _
          | true =>
              simp only [if_true]
              split
              · exact le_refl (1 : ℝ)
              · exact row _
        linarith
      rw [if_neg c1]
      cases objective with
      | none => exact absurd rfl hobj
      | some uni =>
          dsimp only
          have c2 : S.1 ≠ 0 := by
            unfold ColsOf at hC
            rcases hpos with h | h
            · split_ifs at hC <;> omega
            · rw [if_pos h] at hC; omega
          rw [if_neg c2]
          cases norm with
          | other => exact absurd rfl hnorm
          | l1 => exact ⟨_, rfl⟩
          | inf =>
              obtain ⟨k, hk, -⟩ := npArgmin_ok hm (ispaeResidual pb.fn roots uni
                { S.2 with weight := weightVec w } (coeffsOf S.2.order b0))
              simp only [wrapNorm, hk]
              exact ⟨_, rfl⟩
    obtain ⟨r, hr⟩ := hcalc
    unfold ispaeFit
    rw [hS]
    dsimp only
    rw [hb0]
    dsimp only
    rw [hw]
    dsimp only
    rw [if_neg (not_not.2 hl)]
    rw [hr]
    exact ⟨_, rfl⟩

/-- The conditions for a model with bias, one input column, the order 2 and three coefficients. -/
example (R : Rnd ℝ) (P : (N : ℕ) → RalgPar ℝ N) (roots : (ℝ → ℝ) → List ℝ) (start : (N : ℕ) → Fin N → ℝ) :
    (∃ r, ispaeFit R id P 1 0 1 .legendre roots start true (fun (_ : Fin 1) (_ : Fin 1) => ⟨.classical, 1, 2⟩)
      [⟨.classical, 3, 5⟩] (.one 2) (some [0, 0, 0]) none (some false) .inf = .ok r) ∧
    ¬ ∃ r, ispaeFit R id P 1 0 1 .legendre roots start true (fun (_ : Fin 1) (_ : Fin 1) => ⟨.classical, 1, 2⟩)
      [⟨.classical, 3, 5⟩] (.one 2) (some [0, 0]) none (some false) .inf = .ok r := by
  rw [C117_returns_iff, C117_returns_iff]
  constructor
  · refine ⟨⟨by norm_num, Or.inr rfl, rfl, fun _ _ => by norm_num, Or.inr (by norm_num)⟩, ?_, by simp, by simp, by simp⟩
    rintro v e
    cases e
    norm_num [numCoeffs]
  · rintro ⟨-, h, -⟩
    have := h _ rfl
    norm_num [numCoeffs] at this

/-- C117: a vector of coefficients and its parts per column determine each other, in the order of the columns: the first
entry is the bias coefficient. -/
theorem C117_coeffs {C : ℕ} (order : Fin C → ℕ) (b : Coeffs ℝ order) (x : Fin (∑ c, order c) → ℝ) :
    coeffsOf order (vecOf order b) = b ∧ vecOf order (coeffsOf order x) = x ∧
      ∀ (c : Fin C) (d : Fin (order c)) (j : Fin (∑ c, order c)),
        j.val = ∑ e : Fin c.val, order (Fin.castLE c.isLt.le e) + d → coeffsOf order x c d = x j := by
  refine ⟨?_, ?_, ?_⟩
  · have gen : ∀ s : (c : Fin C) × Fin (order c), b (finSigmaFinEquiv.symm (finSigmaFinEquiv s)).1
        (finSigmaFinEquiv.symm (finSigmaFinEquiv s)).2 = b s.1 s.2 := by
      intro s
      rw [Equiv.symm_apply_apply]
    funext c d
    exact gen ⟨c, d⟩
  · funext j
    simp only [vecOf, coeffsOf]
    rw [show (⟨(finSigmaFinEquiv.symm j).1, (finSigmaFinEquiv.symm j).2⟩ : (c : Fin C) × Fin (order c)) =
      finSigmaFinEquiv.symm j from rfl, Equiv.apply_symm_apply]
  · intro c d j hj
    unfold coeffsOf
    congr 1
    apply Fin.ext
    rw [finSigmaFinEquiv_apply, hj]

end IntvalPy
