import Verif.PropsIspae
import Verif.PropsModels
import Mathlib.Topology.Order.IntermediateValue
import Mathlib.Topology.Connected.Basic

/-!
# ISPAE: what the sign of the objective says, and the gradient of the objective `Uni` (C107, C108)
-/

set_option autoImplicit false
set_option linter.unusedSectionVars false

namespace IntvalPy
open Spec

variable {K : Type*} [Field K] [LinearOrder K] [IsStrictOrderedRing K] {m n : ℕ}

theorem ispaeCentered_ends {C : ℕ} (basis : ℕ → K → K) (roots : (K → K) → List K) (D : IspaeData K m C)
    (beta : Coeffs K D.order) (i : Fin m) :
    (ispaeCentered basis roots D beta i).a = (D.y i).mid Rnd.exact - (ispaeVal basis roots D.order beta (D.x i)).b ∧
    (ispaeCentered basis roots D beta i).b = (D.y i).mid Rnd.exact - (ispaeVal basis roots D.order beta (D.x i)).a := by
  rw [ispaeCentered]
  simp only [Iv.ufuncSub, Iv.radd, Iv.neg, Rnd.exact_dn, Rnd.exact_up, id]
  constructor <;> ring

/-- The sign of a residual. -/
theorem ispaeResidual_sign {C : ℕ} (basis : ℕ → K → K) (roots : (K → K) → List K) (D : IspaeData K m C)
    (beta : Coeffs K D.order) (i : Fin m) (hw : 0 < D.weight i) (hy : (D.y i).a ≤ (D.y i).b)
    (hV : (ispaeVal basis roots D.order beta (D.x i)).a ≤ (ispaeVal basis roots D.order beta (D.x i)).b) (uni : Bool) :
    0 ≤ ispaeResidual basis roots uni D beta i ↔
      if uni then (ispaeVal basis roots D.order beta (D.x i)).a ≤ (D.y i).b ∧
        (D.y i).a ≤ (ispaeVal basis roots D.order beta (D.x i)).b
      else (D.y i).a ≤ (ispaeVal basis roots D.order beta (D.x i)).a ∧
        (ispaeVal basis roots D.order beta (D.x i)).b ≤ (D.y i).b := by
  obtain ⟨e1, e2⟩ := ispaeCentered_ends basis roots D beta i
  unfold ispaeResidual
  dsimp only
  rw [mul_nonneg_iff_of_pos_left hw, e1, e2]
  have em : (D.y i).mid Rnd.exact = ((D.y i).a + (D.y i).b) / 2 := by
    simp only [Iv.mid, Rnd.exact_nr, id]
    ring
  have er : (D.y i).rad Rnd.exact = ((D.y i).b - (D.y i).a) / 2 := by
    simp only [Iv.rad, Iv.wid, Rnd.exact_nr, id]
    ring
  rw [em, er]
  set V := ispaeVal basis roots D.order beta (D.x i)
  cases uni with
  | false =>
      simp only [Bool.false_eq_true, if_false]
      rw [sub_nonneg, max_le_iff, abs_le, abs_le]
      constructor
      · rintro ⟨⟨h1, h2⟩, h3, h4⟩
        constructor <;> linarith
      · rintro ⟨h1, h2⟩
        refine ⟨⟨?_, ?_⟩, ?_, ?_⟩ <;> linarith
  | true =>
      simp only [if_true]
      split_ifs with hz
      · have : ((D.y i).a + (D.y i).b) / 2 - V.b ≤ 0 ∧ 0 ≤ ((D.y i).a + (D.y i).b) / 2 - V.a := by
          constructor
          · by_contra hc
            have := mul_pos (not_le.1 hc) (show 0 < ((D.y i).a + (D.y i).b) / 2 - V.a by linarith [not_le.1 hc])
            linarith
          · by_contra hc
            have := mul_pos_of_neg_of_neg (show ((D.y i).a + (D.y i).b) / 2 - V.b < 0 by linarith [not_le.1 hc])
              (not_le.1 hc)
            linarith
        constructor
        · intro _; constructor <;> linarith [this.1, this.2]
        · intro _; linarith
      · rw [not_le] at hz
        rcases pos_and_pos_or_neg_and_neg_of_mul_pos hz with ⟨h1, h2⟩ | ⟨h1, h2⟩
        · rw [abs_of_pos h1, abs_of_pos h2, min_eq_left (by linarith)]
          constructor
          · intro h; constructor <;> linarith
          · rintro ⟨-, h⟩; linarith
        · rw [abs_of_neg h1, abs_of_neg h2, min_eq_right (by linarith)]
          constructor
          · intro h; constructor <;> linarith
          · rintro ⟨h, -⟩; linarith

/-- The value of the objective with the norm `inf` is nonpositive exactly when all residuals are nonnegative. -/
theorem ispaeCalcfg_inf {C : ℕ} (basis : ℕ → K → K) (roots : (K → K) → List K) (uni : Bool) (D : IspaeData K m C)
    (beta g : Coeffs K D.order) (f : K) (h : ispaeCalcfg basis roots (some uni) .inf D beta = .ok (f, g)) :
    (∀ i c, (D.x i c).a ≤ (D.x i c).b) ∧ 0 < C ∧ (f ≤ 0 ↔ ∀ i, 0 ≤ ispaeResidual basis roots uni D beta i) := by
  unfold ispaeCalcfg at h
  split_ifs at h with hx hC
  dsimp only at h
  refine ⟨fun i c => not_lt.1 fun hc => hx ⟨i, c, hc⟩, Nat.pos_of_ne_zero hC, ?_⟩
  unfold wrapNorm at h
  dsimp only at h
  cases hi : npArgmin (ispaeResidual basis roots uni D beta) with
  | error e => rw [hi] at h; cases h
  | ok i =>
    rw [hi] at h
    injection h with h
    obtain ⟨rfl, -⟩ := Prod.mk.inj h
    obtain ⟨k, hk, hmin⟩ := npArgmin_ok i.pos (ispaeResidual basis roots uni D beta)
    rw [hi] at hk
    injection hk with hk
    subst hk
    constructor
    · intro h0 j
      exact le_trans (by linarith) (hmin j)
    · intro h0
      linarith [h0 i]

open Polynomial

/-- C107 for `Tol`: the minimised function is not positive exactly when for every observation all values of the model
on the box of inputs lie in the interval of the output. -/
theorem C107_tol_compat {C : ℕ} (B : ℕ → ℝ[X]) (roots : (ℝ → ℝ) → List ℝ) (hr : RootsOK roots) (D : IspaeData ℝ m C)
    (hw : ∀ i, 0 < D.weight i) (hy : ∀ i, (D.y i).a ≤ (D.y i).b) (beta g : Coeffs ℝ D.order) (f : ℝ)
    (h : ispaeCalcfg (fun d t => (B d).eval t) roots (some false) .inf D beta = .ok (f, g)) :
    f ≤ 0 ↔ ∀ i, ∀ t : Fin C → ℝ, (∀ c, t c ∈ D.x i c) → ∑ c, ∑ d, beta c d * (B (d + 1)).eval (t c) ∈ D.y i := by
  obtain ⟨hx, hC, hf⟩ := ispaeCalcfg_inf _ roots false D beta g f h
  rw [hf]
  refine forall_congr' fun i => ?_
  obtain ⟨-, o, r⟩ := ispaeVal_range hC (fun d t => (B d).eval t) roots D.order beta (D.x i) (hx i)
    (columnsExact_real B roots hr beta _ (hx i))
  rw [ispaeResidual_sign _ roots D beta i (hw i) (hy i) o.2]
  simp only [Bool.false_eq_true, if_false]
  constructor
  · rintro ⟨h1, h2⟩ t ht
    have := r.1 _ ⟨t, ht, rfl⟩
    exact ⟨h1.trans this.1, this.2.trans h2⟩
  · intro hall
    obtain ⟨t1, ht1, e1⟩ := r.2.1
    obtain ⟨t2, ht2, e2⟩ := r.2.2
    rw [e1, e2]
    exact ⟨(hall t1 ht1).1, (hall t2 ht2).2⟩

/-- C107 for `Uni`: the minimised function is not positive exactly when for every observation some value of the model
on the box of inputs lies in the interval of the output. -/
theorem C107_uni_compat {C : ℕ} (B : ℕ → ℝ[X]) (roots : (ℝ → ℝ) → List ℝ) (hr : RootsOK roots) (D : IspaeData ℝ m C)
    (hw : ∀ i, 0 < D.weight i) (hy : ∀ i, (D.y i).a ≤ (D.y i).b) (beta g : Coeffs ℝ D.order) (f : ℝ)
    (h : ispaeCalcfg (fun d t => (B d).eval t) roots (some true) .inf D beta = .ok (f, g)) :
    f ≤ 0 ↔ ∀ i, ∃ t : Fin C → ℝ, (∀ c, t c ∈ D.x i c) ∧ ∑ c, ∑ d, beta c d * (B (d + 1)).eval (t c) ∈ D.y i := by
  obtain ⟨hx, hC, hf⟩ := ispaeCalcfg_inf _ roots true D beta g f h
  rw [hf]
  refine forall_congr' fun i => ?_
  obtain ⟨-, o, r⟩ := ispaeVal_range hC (fun d t => (B d).eval t) roots D.order beta (D.x i) (hx i)
    (columnsExact_real B roots hr beta _ (hx i))
  rw [ispaeResidual_sign _ roots D beta i (hw i) (hy i) o.2]
  simp only [if_true]
  set V := ispaeVal (fun d t => (B d).eval t) roots D.order beta (D.x i)
  constructor
  · rintro ⟨h1, h2⟩
    obtain ⟨t1, ht1, e1⟩ := r.2.1
    obtain ⟨t2, ht2, e2⟩ := r.2.2
    let F : (Fin C → ℝ) → ℝ := fun t => ∑ c, ∑ d, beta c d * (B (d + 1)).eval (t c)
    have hcont : Continuous F := by
      refine continuous_finset_sum _ fun c _ => continuous_finset_sum _ fun d _ => ?_
      exact continuous_const.mul ((B (d + 1)).continuous.comp (continuous_apply c))
    have hpre : IsPreconnected (Set.pi Set.univ fun c => Set.Icc (D.x i c).a (D.x i c).b) :=
      isPreconnected_univ_pi fun c => isPreconnected_Icc
    have hv : max V.a (D.y i).a ∈ Set.Icc (F t1) (F t2) := by
      have f1 : F t1 = V.a := e1.symm
      have f2 : F t2 = V.b := e2.symm
      rw [f1, f2]
      exact ⟨le_max_left _ _, max_le o.2 h2⟩
    obtain ⟨t, ht, et⟩ := hpre.intermediate_value (a := t1) (b := t2) (fun c _ => ht1 c) (fun c _ => ht2 c)
      hcont.continuousOn hv
    refine ⟨t, fun c => ht c (Set.mem_univ c), ?_⟩
    change F t ∈ D.y i
    rw [et]
    exact ⟨le_max_right _ _, max_le h1 (hy i)⟩
  · rintro ⟨t, ht, hty⟩
    have := r.1 _ ⟨t, ht, rfl⟩
    exact ⟨this.1.trans hty.2, hty.1.trans this.2⟩

/-- One observation with the input `[1, 2]` and the output `[4, 5]`: with the coefficient 3 the model has the values
`[3, 6]`, compatible for `Uni` and not for `Tol`. -/
example : (ispaeCalcfg (fun d t => t ^ d) quadRoots (some true) .inf
      (⟨fun _ => 1, fun _ _ => ⟨.classical, 1, 2⟩, fun _ => ⟨.classical, 4, 5⟩, fun _ => 1⟩ : IspaeData ℚ 1 1)
      fun _ _ => 3).map (fun r => r.1) = .ok (-1 / 2) ∧
    (ispaeCalcfg (fun d t => t ^ d) quadRoots (some false) .inf
      (⟨fun _ => 1, fun _ _ => ⟨.classical, 1, 2⟩, fun _ => ⟨.classical, 4, 5⟩, fun _ => 1⟩ : IspaeData ℚ 1 1)
      fun _ _ => 3).map (fun r => r.1) = .ok 1 := by
  constructor <;> decide +kernel

/-! ## C108: the gradient of the objective `Uni` -/

/-- The two coefficient vectors have the same signs. -/
def SameSigns {C : ℕ} {order : Fin C → ℕ} (beta beta' : Coeffs K order) : Prop :=
  ∀ c d, 0 ≤ beta c d ↔ 0 ≤ beta' c d

/-- The midpoint of the output lies on the same side of the values of the model for both coefficient vectors. -/
def SameSide {C : ℕ} (basis : ℕ → K → K) (D : IspaeData K m C) (beta beta' : Coeffs K D.order) (i : Fin m) : Prop :=
  (∀ v, ModelValues basis beta (D.x i) v ∨ ModelValues basis beta' (D.x i) v → v < (D.y i).mid Rnd.exact) ∨
  ∀ v, ModelValues basis beta (D.x i) v ∨ ModelValues basis beta' (D.x i) v → (D.y i).mid Rnd.exact < v

/-- The ends of the values of the model, when the used ends of the columns are attained together. -/
theorem ispaeVal_ends {C : ℕ} (hC : 0 < C) (basis : ℕ → K → K) (roots : (K → K) → List K) (D : IspaeData K m C)
    (beta beta' : Coeffs K D.order) (i : Fin m) (hx : ∀ c, (D.x i c).a ≤ (D.x i c).b) (hs : SameSigns beta beta')
    (h1 : ColumnsExact basis roots beta' (D.x i))
    (h3 : ∀ c (d : Fin (D.order c)),
      IsRange (expanded basis roots D.order (D.x i) c d) (ValuesOn (basis (d + 1)) (D.x i c)))
    (h4 : ∀ upper, ∃ t : Fin C → K, (∀ c, t c ∈ D.x i c) ∧
      ∀ c (d : Fin (D.order c)), basis (d + 1) (t c) = usedEnd basis roots beta (D.x i) upper c d) :
    (ispaeVal basis roots D.order beta' (D.x i)).a =
        ∑ c, ∑ d, beta' c d * usedEnd basis roots beta (D.x i) false c d ∧
    (ispaeVal basis roots D.order beta' (D.x i)).b =
        ∑ c, ∑ d, beta' c d * usedEnd basis roots beta (D.x i) true c d := by
  obtain ⟨-, o1, r1⟩ := ispaeVal_range hC basis roots D.order beta' (D.x i) hx h1
  have bound : ∀ (t : Fin C → K), (∀ c, t c ∈ D.x i c) → ∀ c (d : Fin (D.order c)),
      beta' c d * usedEnd basis roots beta (D.x i) false c d ≤ beta' c d * basis (d + 1) (t c) ∧
      beta' c d * basis (d + 1) (t c) ≤ beta' c d * usedEnd basis roots beta (D.x i) true c d := by
    intro t ht c d
    have hm := (h3 c d).1 _ ⟨t c, ht c, rfl⟩
    unfold usedEnd
    by_cases hb : 0 ≤ beta c d
    · have hb' := (hs c d).1 hb
      simp only [hb, eq_self_iff_true, if_true]
      simp
      exact ⟨mul_le_mul_of_nonneg_left hm.1 hb', mul_le_mul_of_nonneg_left hm.2 hb'⟩
    · have hb' : beta' c d ≤ 0 := (not_le.1 fun hc => hb ((hs c d).2 hc)).le
      simp only [hb]
      simp
      exact ⟨mul_le_mul_of_nonpos_left hm.2 hb', mul_le_mul_of_nonpos_left hm.1 hb'⟩
  obtain ⟨tl, htl, hl⟩ := h4 false
  obtain ⟨tu, htu, hu⟩ := h4 true
  constructor
  · apply le_antisymm
    · have := (r1.1 _ ⟨tl, htl, rfl⟩).1
      simpa only [hl] using this
    · obtain ⟨t, ht, e⟩ := r1.2.1
      rw [e]
      exact Finset.sum_le_sum fun c _ => Finset.sum_le_sum fun d _ => (bound t ht c d).1
  · apply le_antisymm
    · obtain ⟨t, ht, e⟩ := r1.2.2
      rw [e]
      exact Finset.sum_le_sum fun c _ => Finset.sum_le_sum fun d _ => (bound t ht c d).2
    · have := (r1.1 _ ⟨tu, htu, rfl⟩).2
      simpa only [hu] using this

/-- On such a piece a residual of `Uni` is affine with the slope `ispaeDiff`. -/
theorem ispae_uni_row {C : ℕ} (hC : 0 < C) (basis : ℕ → K → K) (roots : (K → K) → List K) (D : IspaeData K m C)
    (beta beta' : Coeffs K D.order) (i : Fin m) (hx : ∀ c, (D.x i c).a ≤ (D.x i c).b) (hs : SameSigns beta beta')
    (hside : SameSide basis D beta beta' i)
    (h1 : ColumnsExact basis roots beta (D.x i)) (h2 : ColumnsExact basis roots beta' (D.x i))
    (h3 : ∀ c (d : Fin (D.order c)),
      IsRange (expanded basis roots D.order (D.x i) c d) (ValuesOn (basis (d + 1)) (D.x i c)))
    (h4 : ∀ upper, ∃ t : Fin C → K, (∀ c, t c ∈ D.x i c) ∧
      ∀ c (d : Fin (D.order c)), basis (d + 1) (t c) = usedEnd basis roots beta (D.x i) upper c d) :
    ispaeResidual basis roots true D beta' i = ispaeResidual basis roots true D beta i +
      ∑ c, ∑ d, ispaeDiff basis roots true D beta i c d * (beta' c d - beta c d) := by
  obtain ⟨-, o1, r1⟩ := ispaeVal_range hC basis roots D.order beta (D.x i) hx h1
  obtain ⟨-, o2, r2⟩ := ispaeVal_range hC basis roots D.order beta' (D.x i) hx h2
  obtain ⟨va, vb⟩ := ispaeVal_ends hC basis roots D beta beta i hx (fun _ _ => Iff.rfl) h1 h3 h4
  obtain ⟨va', vb'⟩ := ispaeVal_ends hC basis roots D beta beta' i hx hs h2 h3 h4
  obtain ⟨ea, eb⟩ := ispaeCentered_ends basis roots D beta i
  obtain ⟨ea', eb'⟩ := ispaeCentered_ends basis roots D beta' i
  set V := ispaeVal basis roots D.order beta (D.x i) with hV
  set V' := ispaeVal basis roots D.order beta' (D.x i) with hV'
  set ym := (D.y i).mid Rnd.exact with hym
  have split : ∀ upper, ∑ c, ∑ d, usedEnd basis roots beta (D.x i) upper c d * (beta' c d - beta c d) =
      (∑ c, ∑ d, beta' c d * usedEnd basis roots beta (D.x i) upper c d) -
      ∑ c, ∑ d, beta c d * usedEnd basis roots beta (D.x i) upper c d := by
    intro upper
    rw [← Finset.sum_sub_distrib]
    refine Finset.sum_congr rfl fun c _ => ?_
    rw [← Finset.sum_sub_distrib]
    exact Finset.sum_congr rfl fun d _ => by ring
  simp only [ispaeResidual, ea, eb, ea', eb', if_true]
  have hab := o1.2
  have hab' := o2.2
  rcases hside with hlt | hgt
  · have p1 : 0 < ym - V.b := sub_pos.2 (hlt _ (Or.inl r1.2.2))
    have p2 : 0 < ym - V'.b := sub_pos.2 (hlt _ (Or.inr r2.2.2))
    have p3 : 0 < ym - V.a := by linarith
    have p4 : 0 < ym - V'.a := by linarith
    have hc : -(ym - V.b) ≤ ym - V.a := by linarith
    have ed : ∀ c (d : Fin (D.order c)), ispaeDiff basis roots true D beta i c d =
        D.weight i * usedEnd basis roots beta (D.x i) true c d := by
      intro c d
      simp only [ispaeDiff, ea, eb, if_pos hc, usedEnd, if_true]
      by_cases hb : 0 ≤ beta c d <;> simp [hb]
    rw [if_neg (not_le.2 (mul_pos p1 p3)), if_neg (not_le.2 (mul_pos p2 p4)), abs_of_pos p1, abs_of_pos p2,
      abs_of_pos p3, abs_of_pos p4, min_eq_left (by linarith), min_eq_left (by linarith)]
    simp only [ed, mul_assoc, ← Finset.mul_sum]
    rw [split, ← vb, ← vb']
    ring
  · have p1 : ym - V.a < 0 := sub_neg.2 (hgt _ (Or.inl r1.2.1))
    have p2 : ym - V'.a < 0 := sub_neg.2 (hgt _ (Or.inr r2.2.1))
    have p3 : ym - V.b < 0 := by linarith
    have p4 : ym - V'.b < 0 := by linarith
    have hc : ¬ -(ym - V.b) ≤ ym - V.a := by linarith
    have ed : ∀ c (d : Fin (D.order c)), ispaeDiff basis roots true D beta i c d =
        D.weight i * -usedEnd basis roots beta (D.x i) false c d := by
      intro c d
      simp only [ispaeDiff, ea, eb, if_neg hc, usedEnd, if_true]
      by_cases hb : 0 ≤ beta c d <;> simp [hb]
    rw [if_neg (not_le.2 (mul_pos_of_neg_of_neg p3 p1)), if_neg (not_le.2 (mul_pos_of_neg_of_neg p4 p2)),
      abs_of_neg p1, abs_of_neg p2, abs_of_neg p3, abs_of_neg p4, min_eq_right (by linarith), min_eq_right (by linarith)]
    simp only [ed, mul_assoc, ← Finset.mul_sum, neg_mul, Finset.sum_neg_distrib]
    rw [split, ← va, ← va']
    ring

/-- C108 as stated: where the minimised function with the objective `Uni` is affine near the coefficients, the vector
handed to the optimiser is its slope. -/
def C108_statement (K : Type) [Field K] [LinearOrder K] [IsStrictOrderedRing K] : Prop :=
  ∀ (m C : ℕ) (basis : ℕ → K → K) (roots : (K → K) → List K) (norm : NormArg) (D : IspaeData K m C)
    (beta g s : Coeffs K D.order) (f ε : K), (∀ i, 0 < D.weight i) → 0 < ε →
    ispaeCalcfg basis roots (some true) norm D beta = .ok (f, g) →
    (∀ beta', (∀ c d, |beta' c d - beta c d| < ε) →
      ∃ g', ispaeCalcfg basis roots (some true) norm D beta' = .ok (f + ∑ c, ∑ d, s c d * (beta' c d - beta c d), g')) →
    g = s

/-- One observation with the input `[1, 2]`, the output `[4, 5]` and order 1. -/
def uniData : IspaeData ℚ 1 1 :=
  ⟨fun _ => 1, fun _ _ => ⟨.classical, 1, 2⟩, fun _ => ⟨.classical, 4, 5⟩, fun _ => 1⟩

/-- For positive coefficients the model takes the values from `b` to `2 b`. -/
theorem uniData_val (beta : Coeffs ℚ uniData.order) (h : 0 ≤ beta 0 (0 : Fin 1)) :
    (ispaeVal (fun d t => t ^ d) (fun _ => []) uniData.order beta (uniData.x 0)).a = beta 0 (0 : Fin 1) ∧
    (ispaeVal (fun d t => t ^ d) (fun _ => []) uniData.order beta (uniData.x 0)).b = 2 * beta 0 (0 : Fin 1) := by
  have e : ∀ t, colPoly (fun d t => t ^ d) (beta 0) t = beta 0 (0 : Fin 1) * t := by
    intro t
    change (∑ d : Fin 1, beta 0 d * t ^ ((d : ℕ) + 1)) = _
    rw [Fin.sum_univ_one]
    simp
  have r : ∀ (p : ℚ → ℚ) (c : ℚ), 0 ≤ c → (∀ t, p t = c * t) →
      Iv.radd Rnd.exact 0 (rangeOf p [] ⟨.classical, 1, 2⟩) = ⟨.classical, c, 2 * c⟩ := by
    intro p c hc hp
    simp only [rangeOf, hp, Iv.radd, List.filter_nil, List.map_cons, List.map_nil, List.foldl_cons, List.foldl_nil, mkIv,
      Rnd.exact_dn, Rnd.exact_up, id]
    rw [min_eq_left (by linarith), max_eq_right (by linarith), if_pos (by linarith)]
    simp [mul_comm]
  have hv : ispaeVal (fun d t => t ^ d) (fun _ => []) uniData.order beta (uniData.x 0) =
      ⟨.classical, beta 0 (0 : Fin 1), 2 * beta 0 (0 : Fin 1)⟩ := r _ _ h e
  rw [hv]
  exact ⟨rfl, rfl⟩

/-- C108 is false: where the values of the model meet the midpoint of the output the function is constant nearby, and
the vector handed to the optimiser is not zero.  With the input `[1, 2]`, the output `[4, 5]` and the coefficient 3 the
function is `-1/2` for all coefficients between 5/2 and 7/2, the vector is `-2`. -/
theorem C108_uni_false : ¬ C108_statement ℚ ∧
    (ispaeCalcfg (fun d t => t ^ d) (fun _ => []) (some true) .inf uniData fun _ _ => 3).map
      (fun r => (r.1, r.2 0 (0 : Fin 1))) = .ok (-1 / 2, -2) := by
  have h1 : (ispaeCalcfg (fun d t => t ^ d) (fun _ => []) (some true) .inf uniData fun _ _ => 3).map
      (fun r => (r.1, r.2 0 (0 : Fin 1))) = .ok (-1 / 2, -2) := by decide +kernel
  refine ⟨fun h => ?_, h1⟩
  cases h3 : ispaeCalcfg (fun d t => t ^ d) (fun _ => []) (some true) .inf uniData fun _ _ => 3 with
  | error e => rw [h3] at h1; cases h1
  | ok r =>
    rw [h3] at h1
    simp only [Except.map, Except.ok.injEq, Prod.mk.injEq] at h1
    obtain ⟨e1, e2⟩ := h1
    have key := h 1 1 _ _ .inf uniData _ r.2 (fun _ _ => 0) r.1 (1 / 2) (fun _ => by norm_num [uniData]) (by norm_num) h3 ?_
    · rw [key] at e2
      norm_num at e2
    intro beta' hb
    have hb' := hb 0 (0 : Fin 1)
    rw [abs_lt] at hb'
    obtain ⟨va, vb⟩ := uniData_val beta' (by linarith)
    obtain ⟨ca, cb⟩ := ispaeCentered_ends (fun d t => t ^ d) (fun _ => []) uniData beta' 0
    have hres : ispaeResidual (fun d t => t ^ d) (fun _ => []) true uniData beta' 0 = 1 / 2 := by
      have ym : (uniData.y 0).mid Rnd.exact = 9 / 2 := by decide +kernel
      have yr : (uniData.y 0).rad Rnd.exact = 1 / 2 := by decide +kernel
      unfold ispaeResidual
      dsimp only
      rw [if_pos rfl, ca, cb, va, vb, ym, yr, if_pos]
      · norm_num [uniData]
      · apply mul_nonpos_of_nonpos_of_nonneg <;> linarith
    have hi : npArgmin (ispaeResidual (fun d t => t ^ d) (fun _ => []) true uniData beta') = .ok 0 := by
      obtain ⟨k, hk, -⟩ := npArgmin_ok (Nat.succ_pos 0)
        (ispaeResidual (fun d t => t ^ d) (fun _ => []) true uniData beta')
      rw [hk, Subsingleton.elim k 0]
    unfold ispaeCalcfg
    rw [if_neg (by rintro ⟨i, c, hc⟩; revert hc; norm_num [uniData])]
    dsimp only [wrapNorm]
    rw [if_neg one_ne_zero, hi]
    dsimp only
    rw [hres, e1]
    refine ⟨_, congrArg Except.ok (Prod.ext ?_ rfl)⟩
    norm_num

/-- C108 (partial): between two coefficient vectors with the same signs, for which the midpoint of every output lies on
the same side of the values of the model, the vector is the slope of the function for the norm `l1`, and a subgradient
for the norm `inf`; as in C78, the ends of the expanded columns must be attained together (`h4`, which holds for
order 1).  Missing for the full statement: rows where the values of the model meet the midpoint, for which the vector is
wrong (`C108_uni_false`). -/
theorem C108_uni_partial {C : ℕ} (basis : ℕ → K → K) (roots : (K → K) → List K) (norm : NormArg)
    (D : IspaeData K m C) (beta beta' g g' : Coeffs K D.order) (f f' : K) (hs : SameSigns beta beta')
    (hside : ∀ i, SameSide basis D beta beta' i)
    (h1 : ∀ i, ColumnsExact basis roots beta (D.x i)) (h2 : ∀ i, ColumnsExact basis roots beta' (D.x i))
    (h3 : ∀ i c (d : Fin (D.order c)),
      IsRange (expanded basis roots D.order (D.x i) c d) (ValuesOn (basis (d + 1)) (D.x i c)))
    (h4 : ∀ i upper, ∃ t : Fin C → K, (∀ c, t c ∈ D.x i c) ∧
      ∀ c (d : Fin (D.order c)), basis (d + 1) (t c) = usedEnd basis roots beta (D.x i) upper c d)
    (h : ispaeCalcfg basis roots (some true) norm D beta = .ok (f, g))
    (h' : ispaeCalcfg basis roots (some true) norm D beta' = .ok (f', g')) :
    f + ∑ c, ∑ d, g c d * (beta' c d - beta c d) ≤ f' ∧
    (norm = .l1 → f' = f + ∑ c, ∑ d, g c d * (beta' c d - beta c d)) := by
  unfold ispaeCalcfg at h h'
  split_ifs at h with hx hC
  rw [if_neg hx] at h'
  dsimp only at h h'
  rw [if_neg hC] at h'
  have hx' : ∀ i c, (D.x i c).a ≤ (D.x i c).b := by
    intro i c
    by_contra hcon
    exact hx ⟨i, c, not_le.1 hcon⟩
  have row := fun i => ispae_uni_row (Nat.pos_of_ne_zero hC) basis roots D beta beta' i (hx' i) hs (hside i) (h1 i)
    (h2 i) (h3 i) (h4 i)
  cases norm with
  | inf =>
      refine ⟨?_, fun hc => by cases hc⟩
      unfold wrapNorm at h h'
      dsimp only at h h'
      cases hi : npArgmin (ispaeResidual basis roots true D beta) with
      | error e => rw [hi] at h; cases h
      | ok i =>
        cases hi' : npArgmin (ispaeResidual basis roots true D beta') with
        | error e => rw [hi'] at h'; cases h'
        | ok i' =>
          rw [hi] at h
          rw [hi'] at h'
          injection h with h
          obtain ⟨rfl, rfl⟩ := Prod.mk.inj h
          injection h' with h'
          obtain ⟨rfl, rfl⟩ := Prod.mk.inj h'
          obtain ⟨k, hk, hmin⟩ := npArgmin_ok i'.pos (ispaeResidual basis roots true D beta')
          rw [hi'] at hk
          injection hk with hk
          subst hk
          have := hmin i
          have := row i
          simp only [List.map_cons, List.map_nil, List.sum_cons, List.sum_nil, add_zero, neg_mul,
            Finset.sum_neg_distrib]
          linarith
  | l1 =>
      unfold wrapNorm at h h'
      dsimp only at h h'
      injection h with h
      obtain ⟨rfl, rfl⟩ := Prod.mk.inj h
      injection h' with h'
      obtain ⟨rfl, rfl⟩ := Prod.mk.inj h'
      have rows := Finset.sum_congr (rfl : (Finset.univ : Finset (Fin m)) = Finset.univ) fun i _ => row i
      rw [Finset.sum_add_distrib] at rows
      have e : ∀ c d, (List.map (fun i => ispaeDiff basis roots true D beta i c d) (List.finRange m)).sum =
          ∑ i, ispaeDiff basis roots true D beta i c d := by
        intro c d
        rw [← List.ofFn_eq_map, List.sum_ofFn]
      have e2 : ∑ c, ∑ d, (∑ i, ispaeDiff basis roots true D beta i c d) * (beta' c d - beta c d) =
          ∑ i, ∑ c, ∑ d, ispaeDiff basis roots true D beta i c d * (beta' c d - beta c d) := by
        rw [Finset.sum_comm]
        refine Finset.sum_congr rfl fun c _ => ?_
        rw [Finset.sum_comm]
        exact Finset.sum_congr rfl fun d _ => Finset.sum_mul _ _ _
      simp only [e, neg_mul, Finset.sum_neg_distrib]
      rw [e2]
      have : -∑ i, ispaeResidual basis roots true D beta' i = -∑ i, ispaeResidual basis roots true D beta i +
          -∑ i, ∑ c, ∑ d, ispaeDiff basis roots true D beta i c d * (beta' c d - beta c d) := by
        rw [rows]; ring
      exact ⟨this.ge, fun _ => this⟩
  | other =>
      unfold wrapNorm at h
      cases h

/-- The assumptions of `C108_uni_partial` hold: with the coefficients 5 and 6 the values of the model are `[5, 10]` and
`[6, 12]`, above the midpoint 9/2; the vector is 1 and the function grows from 0 to 1. -/
example : SameSide (fun d t => t ^ d) uniData (fun _ _ => 5) (fun _ _ => 6) 0 ∧
    (ispaeCalcfg (fun d t => t ^ d) (fun _ => []) (some true) .l1 uniData fun _ _ => 5).map
      (fun r => (r.1, r.2 0 (0 : Fin 1))) = .ok (0, 1) ∧
    (ispaeCalcfg (fun d t => t ^ d) (fun _ => []) (some true) .l1 uniData fun _ _ => 6).map
      (fun r => r.1) = .ok 1 := by
  refine ⟨Or.inr ?_, by decide +kernel, by decide +kernel⟩
  have ym : (uniData.y 0).mid Rnd.exact = 9 / 2 := by decide +kernel
  have e : ∀ (b : ℚ) (t : Fin 1 → ℚ),
      (∑ c, ∑ d : Fin (uniData.order c), (fun _ _ => b : Coeffs ℚ uniData.order) c d * t c ^ ((d : ℕ) + 1)) = b * t 0 := by
    intro b t
    rw [Fin.sum_univ_one]
    change (∑ d : Fin 1, b * t 0 ^ ((d : ℕ) + 1)) = _
    rw [Fin.sum_univ_one]
    simp
  rintro v (⟨t, ht, rfl⟩ | ⟨t, ht, rfl⟩)
  · rw [e, ym]
    have : 1 ≤ t 0 := (ht 0).1
    linarith
  · rw [e, ym]
    have : 1 ≤ t 0 := (ht 0).1
    linarith

/-! ### The same for WILS -/

/-- The midpoint of the output lies on the same side of the row product at both points. -/
def RowSameSide (row : Fin n → Iv K) (y : Iv K) (x z : Fin n → K) : Prop :=
  (∀ u, (u = x ∨ u = z) → rowMid row u + rowRad row u < y.mid Rnd.exact) ∨
  ∀ u, (u = x ∨ u = z) → y.mid Rnd.exact < rowMid row u - rowRad row u

/-- The midpoint of the output lies on the same side of the midpoint of the row product at both points. -/
def RowSameMid (row : Fin n → Iv K) (y : Iv K) (x z : Fin n → K) : Prop :=
  (rowMid row x < y.mid Rnd.exact ∧ rowMid row z ≤ y.mid Rnd.exact) ∨
  (y.mid Rnd.exact < rowMid row x ∧ y.mid Rnd.exact ≤ rowMid row z)

/-- Where a residual of `Uni` or `Uss` is affine between two points. -/
def RowPiece (F : RecFun) (row : Fin n → Iv K) (y : Iv K) (x z : Fin n → K) : Prop :=
  match F with
  | .tol => True
  | .uni => (∀ j, 0 ≤ x j ↔ 0 ≤ z j) ∧ RowSameSide row y x z
  | .uss => (∀ j, (0 < x j ∧ 0 ≤ z j) ∨ (x j < 0 ∧ z j ≤ 0)) ∧ RowSameMid row y x z

theorem wils_row {F : RecFun} (hF : F ≠ .tol) (X : Fin m → Fin n → Iv K) (y : Fin m → Iv K) (w : Fin m → K)
    (hX : ∀ i j, Ordinary (X i j)) (x z : Fin n → K) (i : Fin m) (h : RowPiece F (X i) (y i) x z) :
    wilsResidual F (recData X y w) z i = wilsResidual F (recData X y w) x i +
      ∑ j, wilsDiff F (recData X y w) x i j * (z j - x j) := by
  cases F with
  | tol => exact absurd rfl hF
  | uni =>
      obtain ⟨hs, hside⟩ := h
      have ei : ∀ u, infs (recData X y w) u i = (y i).mid Rnd.exact - (rowMid (X i) u + rowRad (X i) u) := fun _ => rfl
      have es : ∀ u, sups (recData X y w) u i = (y i).mid Rnd.exact - (rowMid (X i) u - rowRad (X i) u) := fun _ => rfl
      have r1 := rowRad_nonneg (hX i) x
      have r2 := rowRad_nonneg (hX i) z
      have e1 : ∀ j, (X i j).mid Rnd.exact + (X i j).rad Rnd.exact = (X i j).b := by
        intro j; simp only [Iv.mid, Iv.rad, Iv.wid, Rnd.exact_nr, id]; ring
      have e2 : ∀ j, (X i j).mid Rnd.exact - (X i j).rad Rnd.exact = (X i j).a := by
        intro j; simp only [Iv.mid, Iv.rad, Iv.wid, Rnd.exact_nr, id]; ring
      have up : (∑ j, mixRow (fun j => (X i j).b) (fun j => (X i j).a) x j * (z j - x j)) =
          (rowMid (X i) z + rowRad (X i) z) - (rowMid (X i) x + rowRad (X i) x) := by
        unfold rowMid rowRad mixRow
        rw [← Finset.sum_add_distrib, ← Finset.sum_add_distrib, ← Finset.sum_sub_distrib]
        refine Finset.sum_congr rfl fun j _ => ?_
        dsimp only
        by_cases h0 : 0 ≤ x j
        · rw [if_pos h0, abs_of_nonneg h0, abs_of_nonneg ((hs j).1 h0), ← e1]; ring
        · have hz : z j ≤ 0 := (not_le.1 fun hc => h0 ((hs j).2 hc)).le
          rw [if_neg h0, abs_of_nonpos (not_le.1 h0).le, abs_of_nonpos hz, ← e2]; ring
      have lo : (∑ j, mixRow (fun j => (X i j).a) (fun j => (X i j).b) x j * (z j - x j)) =
          (rowMid (X i) z - rowRad (X i) z) - (rowMid (X i) x - rowRad (X i) x) := by
        unfold rowMid rowRad mixRow
        rw [← Finset.sum_sub_distrib, ← Finset.sum_sub_distrib, ← Finset.sum_sub_distrib]
        refine Finset.sum_congr rfl fun j _ => ?_
        dsimp only
        by_cases h0 : 0 ≤ x j
        · rw [if_pos h0, abs_of_nonneg h0, abs_of_nonneg ((hs j).1 h0), ← e2]; ring
        · have hz : z j ≤ 0 := (not_le.1 fun hc => h0 ((hs j).2 hc)).le
          rw [if_neg h0, abs_of_nonpos (not_le.1 h0).le, abs_of_nonpos hz, ← e1]; ring
      unfold wilsResidual wilsDiff
      dsimp only
      rcases hside with hs1 | hs1
      · have a1 := hs1 x (Or.inl rfl)
        have a2 := hs1 z (Or.inr rfl)
        have p1 : 0 < infs (recData X y w) x i := by rw [ei]; linarith
        have p2 : 0 < infs (recData X y w) z i := by rw [ei]; linarith
        have q1 : infs (recData X y w) x i ≤ sups (recData X y w) x i := by rw [ei, es]; linarith
        have q2 : infs (recData X y w) z i ≤ sups (recData X y w) z i := by rw [ei, es]; linarith
        have hc : -(infs (recData X y w) x i) ≤ sups (recData X y w) x i := by linarith
        simp only [if_pos hc]
        rw [if_neg (not_le.2 (mul_pos p1 (p1.trans_le q1))), if_neg (not_le.2 (mul_pos p2 (p2.trans_le q2))),
          abs_of_pos p1, abs_of_pos p2, abs_of_pos (p1.trans_le q1), abs_of_pos (p2.trans_le q2),
          min_eq_left q1, min_eq_left q2, ei, ei]
        simp only [mul_assoc, ← Finset.mul_sum]
        change w i * _ = w i * _ + w i * ∑ j, mixRow (fun j => (X i j).b) (fun j => (X i j).a) x j * (z j - x j)
        rw [up]
        ring
      · have a1 := hs1 x (Or.inl rfl)
        have a2 := hs1 z (Or.inr rfl)
        have p1 : sups (recData X y w) x i < 0 := by rw [es]; linarith
        have p2 : sups (recData X y w) z i < 0 := by rw [es]; linarith
        have q1 : infs (recData X y w) x i ≤ sups (recData X y w) x i := by rw [ei, es]; linarith
        have q2 : infs (recData X y w) z i ≤ sups (recData X y w) z i := by rw [ei, es]; linarith
        have hc : ¬ -(infs (recData X y w) x i) ≤ sups (recData X y w) x i := by linarith
        simp only [if_neg hc]
        rw [if_neg (not_le.2 (mul_pos_of_neg_of_neg (q1.trans_lt p1) p1)),
          if_neg (not_le.2 (mul_pos_of_neg_of_neg (q2.trans_lt p2) p2)), abs_of_neg p1, abs_of_neg p2, abs_of_neg (q1.trans_lt p1), abs_of_neg (q2.trans_lt p2),
          min_eq_right (by linarith), min_eq_right (by linarith), es, es]
        simp only [mul_assoc, ← Finset.mul_sum]
        change w i * _ = w i * _ + -w i * ∑ j, mixRow (fun j => (X i j).a) (fun j => (X i j).b) x j * (z j - x j)
        rw [lo]
        ring
  | uss =>
      obtain ⟨hs, hside⟩ := h
      have er : ∀ u, arx (recData X y w) u i = rowRad (X i) u := fun _ => rfl
      have em : ∀ u, amx (recData X y w) u i = rowMid (X i) u := fun _ => rfl
      have eb : (recData X y w).bm i = (y i).mid Rnd.exact := rfl
      have hr : (∑ j, npSign (x j) * (X i j).rad Rnd.exact * (z j - x j)) = rowRad (X i) z - rowRad (X i) x := by
        unfold rowRad
        rw [← Finset.sum_sub_distrib]
        refine Finset.sum_congr rfl fun j _ => ?_
        unfold npSign
        rcases hs j with ⟨h1, h2⟩ | ⟨h1, h2⟩
        · rw [if_pos h1, abs_of_pos h1, abs_of_nonneg h2]; ring
        · rw [if_neg (not_lt.2 h1.le), if_pos h1, abs_of_neg h1, abs_of_nonpos h2]; ring
      have hm : (∑ j, (X i j).mid Rnd.exact * (z j - x j)) = rowMid (X i) z - rowMid (X i) x := by
        unfold rowMid
        rw [← Finset.sum_sub_distrib]
        exact Finset.sum_congr rfl fun j _ => by ring
      have hd : ∀ s : K, (∑ j, (recData X y w).weight i * (npSign (x j) * (recData X y w).Ar i j +
          s * (recData X y w).Am i j) * (z j - x j)) =
          w i * ((rowRad (X i) z - rowRad (X i) x) + s * (rowMid (X i) z - rowMid (X i) x)) := by
        intro s
        rw [← hr, ← hm, Finset.mul_sum, ← Finset.sum_add_distrib, Finset.mul_sum]
        refine Finset.sum_congr rfl fun j _ => ?_
        change w i * (npSign (x j) * (X i j).rad Rnd.exact + s * (X i j).mid Rnd.exact) * (z j - x j) = _
        ring
      unfold wilsResidual wilsDiff
      dsimp only
      rw [hd, er, er, em, em, eb]
      change w i * _ = w i * _ + _
      unfold npSign
      rcases hside with ⟨h1, h2⟩ | ⟨h1, h2⟩
      · rw [if_pos (sub_pos.2 h1), abs_of_pos (sub_pos.2 h1), abs_of_nonneg (sub_nonneg.2 h2)]
        change w i * ((y i).rad Rnd.exact + _ - _) = w i * ((y i).rad Rnd.exact + _ - _) + _
        ring
      · rw [if_neg (not_lt.2 (sub_nonpos.2 h1.le)), if_pos (sub_neg.2 h1), abs_of_neg (sub_neg.2 h1),
          abs_of_nonpos (sub_nonpos.2 h2)]
        change w i * ((y i).rad Rnd.exact + _ - _) = w i * ((y i).rad Rnd.exact + _ - _) + _
        ring

/-- C108 for WILS, partial: between two points with the same signs, for which the midpoint of every output lies on the
same side, the vector for `Uni` and `Uss` is the slope of the function for the norm `l1` and a subgradient for the norm
`inf`.  Missing: rows where the sides meet (as in `C67_uni_false`). -/
theorem C108_wils_partial {F : RecFun} (hF : F ≠ .tol) (norm : NormArg) (X : Fin m → Fin n → Iv K) (y : Fin m → Iv K)
    (w : Fin m → K) (hX : ∀ i j, Ordinary (X i j)) (x z g g' : Fin n → K) (f f' : K)
    (hp : ∀ i, RowPiece F (X i) (y i) x z)
    (h : wilsCalcfg F norm (recData X y w) x = .ok (f, g))
    (h' : wilsCalcfg F norm (recData X y w) z = .ok (f', g')) :
    f + ∑ j, g j * (z j - x j) ≤ f' ∧ (norm = .l1 → f' = f + ∑ j, g j * (z j - x j)) := by
  have row := fun i => wils_row hF X y w hX x z i (hp i)
  cases norm with
  | inf =>
      refine ⟨?_, fun hc => by cases hc⟩
      unfold wilsCalcfg wrapNorm at h h'
      dsimp only at h h'
      cases hi : npArgmin (wilsResidual F (recData X y w) x) with
      | error e => rw [hi] at h; cases h
      | ok i =>
        cases hi' : npArgmin (wilsResidual F (recData X y w) z) with
        | error e => rw [hi'] at h'; cases h'
        | ok i' =>
          rw [hi] at h
          rw [hi'] at h'
          injection h with h
          obtain ⟨rfl, rfl⟩ := Prod.mk.inj h
          injection h' with h'
          obtain ⟨rfl, rfl⟩ := Prod.mk.inj h'
          obtain ⟨k, hk, hmin⟩ := npArgmin_ok i'.pos (wilsResidual F (recData X y w) z)
          rw [hi'] at hk
          injection hk with hk
          subst hk
          have := hmin i
          have := row i
          simp only [List.map_cons, List.map_nil, List.sum_cons, List.sum_nil, add_zero, neg_mul,
            Finset.sum_neg_distrib]
          linarith
  | l1 =>
      unfold wilsCalcfg wrapNorm at h h'
      dsimp only at h h'
      injection h with h
      obtain ⟨rfl, rfl⟩ := Prod.mk.inj h
      injection h' with h'
      obtain ⟨rfl, rfl⟩ := Prod.mk.inj h'
      have rows := Finset.sum_congr (rfl : (Finset.univ : Finset (Fin m)) = Finset.univ) fun i _ => row i
      rw [Finset.sum_add_distrib, Finset.sum_comm] at rows
      have e : ∀ j, (List.map (fun mc => wilsDiff F (recData X y w) x mc j) (List.finRange m)).sum =
          ∑ i, wilsDiff F (recData X y w) x i j := by
        intro j
        rw [← List.ofFn_eq_map, List.sum_ofFn]
      simp only [e, neg_mul, Finset.sum_neg_distrib, Finset.sum_mul]
      rw [rows]
      constructor
      · linarith
      · intro _; ring
  | other => cases h

/-- The assumptions hold: with the input `[1, 2]` and the output `[4, 5]` at the points 5 and 6, for both objectives. -/
example : RowPiece .uni (fun _ : Fin 1 => (⟨.classical, 1, 2⟩ : Iv ℚ)) ⟨.classical, 4, 5⟩ (fun _ => 5) (fun _ => 6) ∧
    RowPiece .uss (fun _ : Fin 1 => (⟨.classical, 1, 2⟩ : Iv ℚ)) ⟨.classical, 4, 5⟩ (fun _ => 5) (fun _ => 6) ∧
    (wilsCalcfg .uss .l1 (recData (fun _ _ => ⟨.classical, 1, 2⟩ : Fin 1 → Fin 1 → Iv ℚ) (fun _ => ⟨.classical, 4, 5⟩)
      fun _ => 1) fun _ => 5).map (fun r => (r.1, r.2 0)) = .ok (0, 1) := by
  refine ⟨⟨fun _ => by norm_num, Or.inr ?_⟩, ⟨fun _ => Or.inl (by norm_num), Or.inr ?_⟩, by decide +kernel⟩
  · rintro u (rfl | rfl) <;> decide +kernel
  · constructor <;> decide +kernel

end IntvalPy
