/-
C146, C147: the recognizing functionals of nonlinear models,
/repo/intvalpy/nonlinear/recognizing_functional.py.  C146: the sign of the values: `Tol` tells whether all the values of the
model lie in the right-hand side, `Uni` whether some do.  C147: the vector returned with the value is the gradient when
the ends of the model have the ends of the interval derivatives as slopes; it is wrong already for `a * x` at negative `x`.
-/
import Verif.ModelNlRec
import Verif.PropsRecFun
import Verif.PropsRalgb
import Mathlib.Tactic.LinearCombination

set_option autoImplicit false
set_option linter.unusedSectionVars false

namespace IntvalPy
open Spec

variable {K : Type*} [Field K] [LinearOrder K] [IsStrictOrderedRing K]

theorem nlTol_exact (Z b : Iv K) (w : K) : nlTolConstituent Rnd.exact Z b w =
    w * ((b.b - b.a) / 2 - max |(b.a + b.b) / 2 - Z.b| |(b.a + b.b) / 2 - Z.a|) := by
  simp only [nlTolConstituent, Rnd.exact_nr, id, Iv.rad, Iv.wid, Iv.mid, Iv.mag, Iv.ufuncSub, Iv.radd, Iv.neg,
    Rnd.exact_dn, Rnd.exact_up]
  have e1 : -Z.b + 1 / 2 * (b.b + b.a) = (b.a + b.b) / 2 - Z.b := by ring
  have e2 : -Z.a + 1 / 2 * (b.b + b.a) = (b.a + b.b) / 2 - Z.a := by ring
  rw [e1, e2]
  ring

/-- C146: the constituent of `Tol` is nonnegative exactly when all the values of the model lie in the right-hand
side. -/
theorem C146_tol (Z b : Iv K) (w : K) (hw : 0 < w) (hZ : Ordinary Z) :
    0 ≤ nlTolConstituent Rnd.exact Z b w ↔ ∀ s ∈ Z, s ∈ b := by
  rw [nlTol_exact, mul_nonneg_iff_of_pos_left hw, sub_nonneg, max_le_iff, abs_le, abs_le]
  have h := hZ.2
  constructor
  · rintro ⟨⟨h1, h2⟩, ⟨h3, h4⟩⟩ s ⟨hs1, hs2⟩
    exact ⟨by linarith, by linarith⟩
  · intro hs
    have ha := hs Z.a ⟨le_rfl, h⟩
    have hb := hs Z.b ⟨h, le_rfl⟩
    have h1 := ha.1
    have h2 := ha.2
    have h3 := hb.1
    have h4 := hb.2
    exact ⟨⟨by linarith, by linarith⟩, ⟨by linarith, by linarith⟩⟩

theorem nlUni_exact (Z b : Iv K) (w : K) : nlUniConstituent Rnd.exact Z b w =
    w * ((b.b - b.a) / 2 - if (b.a + b.b) / 2 - Z.b ≤ 0 ∧ 0 ≤ (b.a + b.b) / 2 - Z.a then 0
      else min |(b.a + b.b) / 2 - Z.b| |(b.a + b.b) / 2 - Z.a|) := by
  simp only [nlUniConstituent, Rnd.exact_nr, id, Iv.rad, Iv.wid, Iv.mid, Iv.mig, Iv.containsNum, Iv.ufuncSub, Iv.radd, Iv.neg,
    Rnd.exact_dn, Rnd.exact_up, Bool.and_eq_true, decide_eq_true_eq]
  have e1 : -Z.b + 1 / 2 * (b.b + b.a) = (b.a + b.b) / 2 - Z.b := by ring
  have e2 : -Z.a + 1 / 2 * (b.b + b.a) = (b.a + b.b) / 2 - Z.a := by ring
  rw [e1, e2]
  have e3 : 1 / 2 * (b.b - b.a) = (b.b - b.a) / 2 := by ring
  rw [e3]

/-- C146: the constituent of `Uni` is nonnegative exactly when some value of the model lies in the right-hand side. -/
theorem C146_uni (Z b : Iv K) (w : K) (hw : 0 < w) (hZ : Ordinary Z) (hb : Ordinary b) :
    0 ≤ nlUniConstituent Rnd.exact Z b w ↔ ∃ s ∈ Z, s ∈ b := by
  rw [nlUni_exact, mul_nonneg_iff_of_pos_left hw, sub_nonneg]
  have h := hZ.2
  have h' := hb.2
  split_ifs with hc
  · refine ⟨fun _ => ⟨(b.a + b.b) / 2, ⟨by linarith [hc.2], by linarith [hc.1]⟩, ⟨by linarith, by linarith⟩⟩,
      fun _ => by linarith⟩
  · rw [min_le_iff, abs_le, abs_le]
    constructor
    · rintro (⟨h1, h2⟩ | ⟨h1, h2⟩)
      · exact ⟨Z.b, ⟨h, le_rfl⟩, ⟨by linarith, by linarith⟩⟩
      · exact ⟨Z.a, ⟨le_rfl, h⟩, ⟨by linarith, by linarith⟩⟩
    · rintro ⟨s, ⟨h1, h2⟩, ⟨h3, h4⟩⟩
      by_cases hm : (b.a + b.b) / 2 - Z.b ≤ 0
      · right
        have : (b.a + b.b) / 2 - Z.a < 0 := by
          by_contra hn
          exact hc ⟨hm, not_lt.mp hn⟩
        exact ⟨by linarith, by linarith⟩
      · left
        push Not at hm
        exact ⟨by linarith, by linarith⟩

/-- C146: the values of the functionals of a system with at least one row. -/
theorem C146_value {m : ℕ} (hm : 0 < m) (Z b : Fin m → Iv K) (w : Fin m → K) (hw : ∀ i, 0 < w i)
    (hZ : ∀ i, Ordinary (Z i)) (hb : ∀ i, Ordinary (b i)) :
    (∃ v, nlTolValue Rnd.exact Z b w = .ok v ∧ (0 ≤ v ↔ ∀ i, ∀ s ∈ Z i, s ∈ b i)) ∧
    (∃ v, nlUniValue Rnd.exact Z b w = .ok v ∧ (0 ≤ v ↔ ∀ i, ∃ s ∈ Z i, s ∈ b i)) := by
  constructor
  · obtain ⟨v, hv, ⟨k, hk⟩, hle⟩ := npAmin_ofFn hm fun i => nlTolConstituent Rnd.exact (Z i) (b i) (w i)
    refine ⟨v, hv, ⟨fun h i => (C146_tol _ _ _ (hw i) (hZ i)).mp (h.trans (hle i)), fun h => ?_⟩⟩
    rw [hk]
    exact (C146_tol _ _ _ (hw k) (hZ k)).mpr (h k)
  · obtain ⟨v, hv, ⟨k, hk⟩, hle⟩ := npAmin_ofFn hm fun i => nlUniConstituent Rnd.exact (Z i) (b i) (w i)
    refine ⟨v, hv, ⟨fun h i => (C146_uni _ _ _ (hw i) (hZ i) (hb i)).mp (h.trans (hle i)), fun h => ?_⟩⟩
    rw [hk]
    exact (C146_uni _ _ _ (hw k) (hZ k) (hb k)).mpr (h k)

/-- `[2, 3]` lies in `[1, 4]`; `[0, 2]` only meets it. -/
example : nlTolValue (Rnd.exact : Rnd ℚ) ![⟨.classical, 2, 3⟩, ⟨.classical, 0, 2⟩] (fun _ => ⟨.classical, 1, 4⟩) (fun _ => 1) =
      .ok (-1) ∧
    nlUniValue (Rnd.exact : Rnd ℚ) ![⟨.classical, 2, 3⟩, ⟨.classical, 0, 2⟩] (fun _ => ⟨.classical, 1, 4⟩) (fun _ => 1) =
      .ok 1 ∧
    nlTolValue (Rnd.exact : Rnd ℚ) (m := 0) (fun i => i.elim0) (fun i => i.elim0) (fun _ => 1) = .error .valueError := by
  refine ⟨?_, ?_, rfl⟩ <;> decide +kernel

/-! ## The gradients -/

/-- The data of the model `a * x` with the derivative `a`, one row and one parameter. -/
def nlLinear (a : Iv K) (bm br : K) : NlData K 1 1 where
  mdl x _ := Iv.rmul Rnd.exact (x 0) a
  g _ _ _ := a
  bm _ := bm
  br _ := br
  weight _ := 1

/-- Full statement for the model `a * x`: where the objective is affine near a point, the number returned with its value
is its slope. -/
def C147_statement (calcfg : NlData ℚ 1 1 → (Fin 1 → ℚ) → Except Err (ℚ × (Fin 1 → ℚ))) : Prop :=
  ∀ (a : Iv ℚ) (bm br x δ s v : ℚ) (g : Fin 1 → ℚ), Ordinary a → 0 < δ → calcfg (nlLinear a bm br) (fun _ => x) = .ok (v, g) →
    (∀ t, |t| < δ → ∃ g', calcfg (nlLinear a bm br) (fun _ => x + t) = .ok (v + s * t, g')) → g 0 = s

theorem nlTol_one (d : NlData K 1 1) (x : Fin 1 → K) : ∃ g, nlTolCalcfg d x =
    .ok (-(d.weight 0 * (d.br 0 - (d.infsup x 0).mag)), g) := by
  unfold nlTolCalcfg
  obtain ⟨i, hi, -⟩ := npArgmin_ok Nat.one_pos fun i : Fin 1 => d.weight i * (d.br i - (d.infsup x i).mag)
  simp only [hi]
  have : i = 0 := Subsingleton.elim _ _
  subst this
  exact ⟨_, rfl⟩

theorem nlUni_one (d : NlData K 1 1) (x : Fin 1 → K) : ∃ g, nlUniCalcfg d x =
    .ok (-(d.weight 0 * (d.br 0 - (d.infsup x 0).mig)), g) := by
  unfold nlUniCalcfg
  obtain ⟨i, hi, -⟩ := npArgmin_ok Nat.one_pos fun i : Fin 1 => d.weight i * (d.br i - (d.infsup x i).mig)
  simp only [hi]
  have : i = 0 := Subsingleton.elim _ _
  subst this
  exact ⟨_, rfl⟩

theorem rmul_neg_point (c : ℚ) (hc : c < 0) : Iv.rmul (Rnd.exact : Rnd ℚ) c ⟨.classical, 1, 2⟩ = ⟨.classical, 2 * c, c⟩ := by
  simp only [Iv.rmul, Rnd.exact_dn, Rnd.exact_up, id]
  rw [min_eq_right (by linarith), max_eq_left (by linarith)]
  ring_nf

/-- C147 is false for `Tol`: `[1, 2] x = [-10, 10]` at `x = -1` has the slope `-2`; the number returned is `-1`. -/
theorem C147_tol_false : ¬ C147_statement nlTolCalcfg := by
  intro h
  have hv : nlTolCalcfg (nlLinear (⟨.classical, 1, 2⟩ : Iv ℚ) 0 10) (fun _ => -1) = .ok (-8, fun _ => -1) := by
    obtain ⟨g, hg⟩ := nlTol_one (nlLinear (⟨.classical, 1, 2⟩ : Iv ℚ) 0 10) (fun _ => -1)
    have e : (nlTolCalcfg (nlLinear (⟨.classical, 1, 2⟩ : Iv ℚ) 0 10) (fun _ => -1)).map (fun r => (r.1, r.2 0)) =
        .ok (-8, -1) := by decide +kernel
    rw [hg] at e ⊢
    simp only [Except.map, Except.ok.injEq, Prod.mk.injEq] at e
    obtain ⟨e1, e2⟩ := e
    rw [e1]
    congr 2
    funext j
    rw [Subsingleton.elim j 0, e2]
  have := h ⟨.classical, 1, 2⟩ 0 10 (-1) (1 / 2) (-2) (-8) (fun _ => -1) ⟨rfl, by norm_num⟩ (by norm_num) hv (by
    intro t ht
    rw [abs_lt] at ht
    obtain ⟨g, hg⟩ := nlTol_one (nlLinear (⟨.classical, 1, 2⟩ : Iv ℚ) 0 10) (fun _ => -1 + t)
    refine ⟨g, ?_⟩
    rw [hg]
    congr 2
    simp only [nlLinear, NlData.infsup, Iv.mag]
    rw [rmul_neg_point _ (by linarith)]
    dsimp only
    rw [abs_of_nonneg (show (0 : ℚ) ≤ 0 - (-1 + t) by linarith [ht.2]),
      abs_of_nonneg (show (0 : ℚ) ≤ 0 - 2 * (-1 + t) by linarith [ht.2]), max_eq_right (by linarith [ht.2])]
    ring)
  norm_num at this

/-- C147 is false for `Uni`: `[1, 2] x = [10, 12]` at `x = -1` has the slope `-1`; the number returned is `-2`. -/
theorem C147_uni_false : ¬ C147_statement nlUniCalcfg := by
  intro h
  have hv : nlUniCalcfg (nlLinear (⟨.classical, 1, 2⟩ : Iv ℚ) 11 1) (fun _ => -1) = .ok (11, fun _ => -2) := by
    obtain ⟨g, hg⟩ := nlUni_one (nlLinear (⟨.classical, 1, 2⟩ : Iv ℚ) 11 1) (fun _ => -1)
    have e : (nlUniCalcfg (nlLinear (⟨.classical, 1, 2⟩ : Iv ℚ) 11 1) (fun _ => -1)).map (fun r => (r.1, r.2 0)) =
        .ok (11, -2) := by decide +kernel
    rw [hg] at e ⊢
    simp only [Except.map, Except.ok.injEq, Prod.mk.injEq] at e
    obtain ⟨e1, e2⟩ := e
    rw [e1]
    congr 2
    funext j
    rw [Subsingleton.elim j 0, e2]
  have := h ⟨.classical, 1, 2⟩ 11 1 (-1) (1 / 2) (-1) 11 (fun _ => -2) ⟨rfl, by norm_num⟩ (by norm_num) hv (by
    intro t ht
    rw [abs_lt] at ht
    obtain ⟨g, hg⟩ := nlUni_one (nlLinear (⟨.classical, 1, 2⟩ : Iv ℚ) 11 1) (fun _ => -1 + t)
    refine ⟨g, ?_⟩
    rw [hg]
    congr 2
    have ei : (nlLinear (⟨.classical, 1, 2⟩ : Iv ℚ) 11 1).infsup (fun _ => -1 + t) 0 =
        ⟨.classical, 11 - (-1 + t), 11 - 2 * (-1 + t)⟩ := by
      simp only [nlLinear, NlData.infsup]
      rw [rmul_neg_point _ (by linarith)]
    rw [ei]
    simp only [nlLinear, Iv.mig, Iv.containsNum, Bool.and_eq_true, decide_eq_true_eq]
    rw [if_neg (fun hh => by linarith [hh.1, ht.2])]
    rw [abs_of_nonneg (show (0 : ℚ) ≤ 11 - (-1 + t) by linarith [ht.2]),
      abs_of_nonneg (show (0 : ℚ) ≤ 11 - 2 * (-1 + t) by linarith [ht.2]), min_eq_left (by linarith [ht.2])]
    ring)
  norm_num at this

/-- C147: on every set of parameters where the lower end of the model lies below, and the upper end above, their
linear forms with the lower and upper ends of the derivatives, the vector of `Tol` is a subgradient of the objective. -/
theorem C147_tol_partial {m p : ℕ} (d : NlData K m p) (x : Fin p → K) (D : Set (Fin p → K)) (hw : ∀ i, 0 ≤ d.weight i)
    (hZ : ∀ y i, Ordinary (d.mdl y i))
    (hlo : ∀ y ∈ D, ∀ i, (d.mdl y i).a ≤ (d.mdl x i).a + ∑ j, min (d.g j x i).a (d.g j x i).b * (y j - x j))
    (hhi : ∀ y ∈ D, ∀ i, (d.mdl x i).b + ∑ j, max (d.g j x i).a (d.g j x i).b * (y j - x j) ≤ (d.mdl y i).b)
    (v : K) (g : Fin p → K) (h : nlTolCalcfg d x = .ok (v, g)) (y : Fin p → K) (hy : y ∈ D) (v' : K) (g' : Fin p → K)
    (h' : nlTolCalcfg d y = .ok (v', g')) : v + ∑ j, g j * (y j - x j) ≤ v' := by
  unfold nlTolCalcfg at h h'
  dsimp only at h h'
  cases e : npArgmin (fun i => d.weight i * (d.br i - (d.infsup x i).mag)) with
  | error er => rw [e] at h; cases h
  | ok mc =>
  cases e' : npArgmin (fun i => d.weight i * (d.br i - (d.infsup y i).mag)) with
  | error er => rw [e'] at h'; cases h'
  | ok mc' =>
  rw [e] at h
  rw [e'] at h'
  cases h
  cases h'
  have hle : d.weight mc' * (d.br mc' - (d.infsup y mc').mag) ≤ d.weight mc * (d.br mc - (d.infsup y mc).mag) := by
    obtain ⟨i, hi, hi'⟩ := npArgmin_ok mc.pos fun i => d.weight i * (d.br i - (d.infsup y i).mag)
    rw [e'] at hi
    cases hi
    exact hi' mc
  have hx := (hZ x mc).2
  have hy' := (hZ y mc).2
  have hwm := hw mc
  have hpos : 0 ≤ d.weight mc := hwm
  by_cases hc : -(d.infsup x mc).a ≤ (d.infsup x mc).b
  · have hmag : (d.infsup x mc).mag = d.bm mc - (d.mdl x mc).a := by
      simp only [NlData.infsup, Iv.mag] at hc ⊢
      rw [abs_of_nonneg (show 0 ≤ d.bm mc - (d.mdl x mc).a by linarith)]
      exact max_eq_right (abs_le.mpr ⟨by linarith, by linarith⟩)
    have hmag' : d.bm mc - (d.mdl y mc).a ≤ (d.infsup y mc).mag := by
      simp only [NlData.infsup, Iv.mag]
      exact (le_abs_self _).trans (le_max_right _ _)
    have hs : ∑ j, (if -(d.infsup x mc).a ≤ (d.infsup x mc).b then -(d.weight mc * min (d.g j x mc).a (d.g j x mc).b)
        else -(-d.weight mc * max (d.g j x mc).a (d.g j x mc).b)) * (y j - x j) =
        -(d.weight mc * ∑ j, min (d.g j x mc).a (d.g j x mc).b * (y j - x j)) := by
      rw [Finset.mul_sum, ← Finset.sum_neg_distrib]
      refine Finset.sum_congr rfl fun j _ => ?_
      rw [if_pos hc]; ring
    rw [hs, hmag]
    have h3 := hlo y hy mc
    have h4 : d.weight mc * (d.br mc - (d.infsup y mc).mag) ≤ d.weight mc * (d.br mc - (d.bm mc -
        ((d.mdl x mc).a + ∑ j, min (d.g j x mc).a (d.g j x mc).b * (y j - x j)))) :=
      mul_le_mul_of_nonneg_left (by linarith) hpos
    have h5 := hle.trans h4
    linear_combination h5
  · push Not at hc
    have hmag : (d.infsup x mc).mag = (d.mdl x mc).b - d.bm mc := by
      simp only [NlData.infsup, Iv.mag] at hc ⊢
      rw [abs_of_nonpos (show d.bm mc - (d.mdl x mc).b ≤ 0 by linarith)]
      rw [max_eq_left (abs_le.mpr ⟨by linarith, by linarith⟩)]
      ring
    have hmag' : (d.mdl y mc).b - d.bm mc ≤ (d.infsup y mc).mag := by
      simp only [NlData.infsup, Iv.mag]
      refine le_trans ?_ (le_max_left _ _)
      have := neg_le_abs (d.bm mc - (d.mdl y mc).b)
      linarith
    have hs : ∑ j, (if -(d.infsup x mc).a ≤ (d.infsup x mc).b then -(d.weight mc * min (d.g j x mc).a (d.g j x mc).b)
        else -(-d.weight mc * max (d.g j x mc).a (d.g j x mc).b)) * (y j - x j) =
        d.weight mc * ∑ j, max (d.g j x mc).a (d.g j x mc).b * (y j - x j) := by
      rw [Finset.mul_sum]
      refine Finset.sum_congr rfl fun j _ => ?_
      rw [if_neg (not_le.mpr hc)]; ring
    rw [hs, hmag]
    have h3 := hhi y hy mc
    have h4 : d.weight mc * (d.br mc - (d.infsup y mc).mag) ≤ d.weight mc * (d.br mc - ((d.mdl x mc).b +
        ∑ j, max (d.g j x mc).a (d.g j x mc).b * (y j - x j) - d.bm mc)) :=
      mul_le_mul_of_nonneg_left (by linarith) hpos
    have h5 := hle.trans h4
    linear_combination h5

theorem mig_mk (c : Cls) (p q : K) : (⟨c, p, q⟩ : Iv K).mig = if p ≤ 0 ∧ 0 ≤ q then 0 else min |p| |q| := by
  simp only [Iv.mig, Iv.containsNum, Bool.and_eq_true, decide_eq_true_eq]

/-- C147: the same for `Uni` when no value of the chosen row of the model is the midpoint of the right-hand side and
the upper end of the model lies below, the lower end above, their linear forms. -/
theorem C147_uni_partial {m p : ℕ} (d : NlData K m p) (x : Fin p → K) (D : Set (Fin p → K)) (hw : ∀ i, 0 ≤ d.weight i)
    (hZ : ∀ y i, Ordinary (d.mdl y i)) (hout : ∀ i, d.bm i ∉ d.mdl x i)
    (hhi : ∀ y ∈ D, ∀ i, (d.mdl y i).b ≤ (d.mdl x i).b + ∑ j, max (d.g j x i).a (d.g j x i).b * (y j - x j))
    (hlo : ∀ y ∈ D, ∀ i, (d.mdl x i).a + ∑ j, min (d.g j x i).a (d.g j x i).b * (y j - x j) ≤ (d.mdl y i).a)
    (v : K) (g : Fin p → K) (h : nlUniCalcfg d x = .ok (v, g)) (y : Fin p → K) (hy : y ∈ D) (v' : K) (g' : Fin p → K)
    (h' : nlUniCalcfg d y = .ok (v', g')) : v + ∑ j, g j * (y j - x j) ≤ v' := by
  unfold nlUniCalcfg at h h'
  dsimp only at h h'
  cases e : npArgmin (fun i => d.weight i * (d.br i - (d.infsup x i).mig)) with
  | error er => rw [e] at h; cases h
  | ok mc =>
  cases e' : npArgmin (fun i => d.weight i * (d.br i - (d.infsup y i).mig)) with
  | error er => rw [e'] at h'; cases h'
  | ok mc' =>
  rw [e] at h
  rw [e'] at h'
  cases h
  cases h'
  have hle : d.weight mc' * (d.br mc' - (d.infsup y mc').mig) ≤ d.weight mc * (d.br mc - (d.infsup y mc).mig) := by
    obtain ⟨i, hi, hi'⟩ := npArgmin_ok mc.pos fun i => d.weight i * (d.br i - (d.infsup y i).mig)
    rw [e'] at hi
    cases hi
    exact hi' mc
  have hx := (hZ x mc).2
  have hpos : 0 ≤ d.weight mc := hw mc
  have hmy : d.bm mc - (d.mdl y mc).b ≤ (d.infsup y mc).mig ∧ (d.mdl y mc).a - d.bm mc ≤ (d.infsup y mc).mig := by
    have hy' := (hZ y mc).2
    rw [NlData.infsup, mig_mk]
    split_ifs with hc
    · exact ⟨hc.1, by linarith [hc.2]⟩
    · refine ⟨le_min (le_abs_self _) ?_, le_min ?_ ?_⟩
      · have := le_abs_self (d.bm mc - (d.mdl y mc).a); linarith
      · have := neg_le_abs (d.bm mc - (d.mdl y mc).b); linarith
      · have := neg_le_abs (d.bm mc - (d.mdl y mc).a); linarith
  by_cases hs0 : (d.mdl x mc).b < d.bm mc
  · have hc : -(d.infsup x mc).a ≤ (d.infsup x mc).b := by
      simp only [NlData.infsup]; linarith
    have hmig : (d.infsup x mc).mig = d.bm mc - (d.mdl x mc).b := by
      rw [NlData.infsup, mig_mk]
      rw [if_neg (fun hh => by linarith [hh.1]), abs_of_nonneg (by linarith), abs_of_nonneg (by linarith),
        min_eq_left (by linarith)]
    have hs : ∑ j, (if -(d.infsup x mc).a ≤ (d.infsup x mc).b then -(d.weight mc * max (d.g j x mc).a (d.g j x mc).b)
        else -(-d.weight mc * min (d.g j x mc).a (d.g j x mc).b)) * (y j - x j) =
        -(d.weight mc * ∑ j, max (d.g j x mc).a (d.g j x mc).b * (y j - x j)) := by
      rw [Finset.mul_sum, ← Finset.sum_neg_distrib]
      refine Finset.sum_congr rfl fun j _ => ?_
      rw [if_pos hc]; ring
    rw [hs, hmig]
    have h3 := hhi y hy mc
    have h4 : d.weight mc * (d.br mc - (d.infsup y mc).mig) ≤ d.weight mc * (d.br mc - (d.bm mc -
        ((d.mdl x mc).b + ∑ j, max (d.g j x mc).a (d.g j x mc).b * (y j - x j)))) :=
      mul_le_mul_of_nonneg_left (by linarith [hmy.1]) hpos
    have h5 := hle.trans h4
    linear_combination h5
  · push Not at hs0
    have hs1 : d.bm mc < (d.mdl x mc).a := by
      by_contra hn
      exact hout mc ⟨not_lt.mp hn, hs0⟩
    have hc : ¬ -(d.infsup x mc).a ≤ (d.infsup x mc).b := by
      simp only [NlData.infsup]
      push Not
      linarith
    have hmig : (d.infsup x mc).mig = (d.mdl x mc).a - d.bm mc := by
      rw [NlData.infsup, mig_mk]
      rw [if_neg (fun hh => by linarith [hh.2]), abs_of_nonpos (by linarith), abs_of_nonpos (by linarith),
        min_eq_right (by linarith)]
      ring
    have hs : ∑ j, (if -(d.infsup x mc).a ≤ (d.infsup x mc).b then -(d.weight mc * max (d.g j x mc).a (d.g j x mc).b)
        else -(-d.weight mc * min (d.g j x mc).a (d.g j x mc).b)) * (y j - x j) =
        d.weight mc * ∑ j, min (d.g j x mc).a (d.g j x mc).b * (y j - x j) := by
      rw [Finset.mul_sum]
      refine Finset.sum_congr rfl fun j _ => ?_
      rw [if_neg hc]; ring
    rw [hs, hmig]
    have h3 := hlo y hy mc
    have h4 : d.weight mc * (d.br mc - (d.infsup y mc).mig) ≤ d.weight mc * (d.br mc - ((d.mdl x mc).a +
        ∑ j, min (d.g j x mc).a (d.g j x mc).b * (y j - x j) - d.bm mc)) :=
      mul_le_mul_of_nonneg_left (by linarith [hmy.2]) hpos
    have h5 := hle.trans h4
    linear_combination h5

theorem rmul_nonneg_point (c : ℚ) (hc : 0 ≤ c) : Iv.rmul (Rnd.exact : Rnd ℚ) c ⟨.classical, 1, 2⟩ = ⟨.classical, c, 2 * c⟩ := by
  simp only [Iv.rmul, Rnd.exact_dn, Rnd.exact_up, id]
  rw [min_eq_left (by linarith), max_eq_right (by linarith)]
  ring_nf

/-- The hypotheses hold for `[1, 2] x` at `x = 1` and nonnegative arguments: the vector is then the right one. -/
example (y : ℚ) (hy : 0 ≤ y) (v' w' : ℚ) (g' h' : Fin 1 → ℚ)
    (h1 : nlTolCalcfg (nlLinear (⟨.classical, 1, 2⟩ : Iv ℚ) 0 10) (fun _ => y) = .ok (v', g'))
    (h2 : nlUniCalcfg (nlLinear (⟨.classical, 1, 2⟩ : Iv ℚ) 11 1) (fun _ => y) = .ok (w', h')) :
    -8 + 2 * (y - 1) ≤ v' ∧ 8 + (-2) * (y - 1) ≤ w' := by
  have hord : ∀ bm br (z : Fin 1 → ℚ) i, Ordinary ((nlLinear (⟨.classical, 1, 2⟩ : Iv ℚ) bm br).mdl z i) := fun bm br z i =>
    (C05_rmul_encloses Rnd.exact _ _ ⟨rfl, by norm_num⟩).2.2
  have hm : ∀ bm br (z : Fin 1 → ℚ) i, 0 ≤ z 0 → (nlLinear (⟨.classical, 1, 2⟩ : Iv ℚ) bm br).mdl z i =
      ⟨.classical, z 0, 2 * z 0⟩ := fun bm br z i hz => rmul_nonneg_point _ hz
  constructor
  · have e : ∃ g, nlTolCalcfg (nlLinear (⟨.classical, 1, 2⟩ : Iv ℚ) 0 10) (fun _ => 1) = .ok (-8, g) ∧ g 0 = 2 := by
      have e : (nlTolCalcfg (nlLinear (⟨.classical, 1, 2⟩ : Iv ℚ) 0 10) (fun _ => 1)).map (fun r => (r.1, r.2 0)) =
          .ok (-8, 2) := by decide +kernel
      cases hc : nlTolCalcfg (nlLinear (⟨.classical, 1, 2⟩ : Iv ℚ) 0 10) (fun _ => 1) with
      | error er => rw [hc] at e; cases e
      | ok r =>
          rw [hc] at e
          simp only [Except.map, Except.ok.injEq, Prod.mk.injEq] at e
          exact ⟨r.2, by rw [← e.1], e.2⟩
    obtain ⟨g, hg, hg0⟩ := e
    have := C147_tol_partial (nlLinear (⟨.classical, 1, 2⟩ : Iv ℚ) 0 10) (fun _ => 1) {z | 0 ≤ z 0} (fun _ => zero_le_one)
      (hord 0 10) (fun z hz i => by
        rw [hm _ _ z i hz, hm _ _ _ i zero_le_one]
        norm_num [nlLinear]) (fun z hz i => by
        rw [hm _ _ z i hz, hm _ _ _ i zero_le_one]
        norm_num [nlLinear]
        linarith) _ _ hg (fun _ => y) hy _ _ h1
    rw [Fin.sum_univ_one, hg0] at this
    exact this
  · have e : ∃ g, nlUniCalcfg (nlLinear (⟨.classical, 1, 2⟩ : Iv ℚ) 11 1) (fun _ => 1) = .ok (8, g) ∧ g 0 = -2 := by
      have e : (nlUniCalcfg (nlLinear (⟨.classical, 1, 2⟩ : Iv ℚ) 11 1) (fun _ => 1)).map (fun r => (r.1, r.2 0)) =
          .ok (8, -2) := by decide +kernel
      cases hc : nlUniCalcfg (nlLinear (⟨.classical, 1, 2⟩ : Iv ℚ) 11 1) (fun _ => 1) with
      | error er => rw [hc] at e; cases e
      | ok r =>
          rw [hc] at e
          simp only [Except.map, Except.ok.injEq, Prod.mk.injEq] at e
          exact ⟨r.2, by rw [← e.1], e.2⟩
    obtain ⟨g, hg, hg0⟩ := e
    have := C147_uni_partial (nlLinear (⟨.classical, 1, 2⟩ : Iv ℚ) 11 1) (fun _ => 1) {z | 0 ≤ z 0} (fun _ => zero_le_one)
      (hord 11 1) (fun i hi => by
        rw [hm _ _ _ i zero_le_one] at hi
        norm_num [nlLinear, Iv.mem_def] at hi) (fun z hz i => by
        rw [hm _ _ z i hz, hm _ _ _ i zero_le_one]
        norm_num [nlLinear]
        linarith) (fun z hz i => by
        rw [hm _ _ z i hz, hm _ _ _ i zero_le_one]
        norm_num [nlLinear]) _ _ hg (fun _ => y) hy _ _ h2
    rw [Fin.sum_univ_one, hg0] at this
    exact this

theorem nlMaximize_spec {p : ℕ} (calcfg : (Fin p → K) → Except Err (K × (Fin p → K))) (P : RalgPar K p) (big : K)
    (con : Option (Rows K p × K)) (x0 : Fin p → K) (value : (Fin p → K) → K)
    (hobj : ∀ x, ∃ g, nlObjective calcfg con x = .ok (-value x, g)) :
    ∃ o, nlMaximize calcfg P big con x0 = .ok o ∧
      o.fr = value o.xr ∧ o.xr ∈ o.evals ∧ (∀ e ∈ o.evals, value e ≤ o.fr) ∧ value x0 ≤ o.fr := by
  unfold nlMaximize
  obtain ⟨g0, hg0⟩ := hobj x0
  rw [hg0]
  refine ⟨_, rfl, ?_⟩
  obtain ⟨⟨h1, h2, h3, h4⟩, -⟩ := C35_ralgb5 P big (nlTotal (nlObjective calcfg con)) x0
  have hv : ∀ x, (nlTotal (nlObjective calcfg con) x).1 = -value x := by
    intro x
    obtain ⟨g, hg⟩ := hobj x
    unfold nlTotal
    rw [hg]
  rw [hv] at h2 h4
  refine ⟨?_, h1, fun e he => ?_, ?_⟩
  · dsimp only; rw [h2, neg_neg]
  · have := h3 e he
    rw [hv] at this
    dsimp only
    linarith
  · dsimp only
    linarith

/-- C147: `maximize` returns, for a system with at least one row; the value is that of the functional at the returned
point, minus the penalty if there are constraints, and no evaluated point, in particular not the start, has a larger
one. -/
theorem C147_maximize {m p : ℕ} (hm : 0 < m) (d : NlData K m p) (P : RalgPar K p) (big : K) (con : Option (Rows K p × K))
    (x0 : Fin p → K) (tol uni pen : (Fin p → K) → K)
    (htol : ∀ x, (∀ i, tol x ≤ d.weight i * (d.br i - (d.infsup x i).mag)) ∧
      ∃ i, tol x = d.weight i * (d.br i - (d.infsup x i).mag))
    (huni : ∀ x, (∀ i, uni x ≤ d.weight i * (d.br i - (d.infsup x i).mig)) ∧
      ∃ i, uni x = d.weight i * (d.br i - (d.infsup x i).mig))
    (hpen : ∀ x, pen x = match con with | none => 0 | some c => linearPenalty c.1 c.2 x) :
    (∃ o, nlMaximize (nlTolCalcfg d) P big con x0 = .ok o ∧ o.fr = tol o.xr - pen o.xr ∧ o.xr ∈ o.evals ∧
      (∀ e ∈ o.evals, tol e - pen e ≤ o.fr) ∧ tol x0 - pen x0 ≤ o.fr) ∧
    (∃ o, nlMaximize (nlUniCalcfg d) P big con x0 = .ok o ∧ o.fr = uni o.xr - pen o.xr ∧ o.xr ∈ o.evals ∧
      (∀ e ∈ o.evals, uni e - pen e ≤ o.fr) ∧ uni x0 - pen x0 ≤ o.fr) := by
  have key : ∀ (f : (Fin p → K) → Fin m → K) (v : (Fin p → K) → K) (calcfg : (Fin p → K) → Except Err (K × (Fin p → K))),
      (∀ x i, npArgmin (f x) = .ok i → ∃ g, calcfg x = .ok (-f x i, g)) →
      (∀ x, (∀ i, v x ≤ f x i) ∧ ∃ i, v x = f x i) →
      ∀ x, ∃ g, nlObjective calcfg con x = .ok (-(v x - pen x), g) := by
    intro f v calcfg hc hv x
    obtain ⟨i, hi, hle⟩ := npArgmin_ok hm (f x)
    have e : f x i = v x := by
      obtain ⟨h1, k, hk⟩ := hv x
      exact le_antisymm (hk ▸ hle k) (h1 i)
    obtain ⟨g, hg⟩ := hc x i hi
    have hp := hpen x
    unfold nlObjective
    cases con with
    | none =>
        dsimp only at hp ⊢
        exact ⟨g, by rw [hg, e, hp, sub_zero]⟩
    | some c =>
        dsimp only at hp ⊢
        unfold calcfgConstr
        rw [hg]
        refine ⟨fun j => g j + linearPenaltyGrad c.1 c.2 x j, ?_⟩
        simp only [Except.map]
        rw [e, hp]
        congr 2
        ring
  constructor
  · exact nlMaximize_spec _ P big con x0 (fun x => tol x - pen x) (key
      (fun x i => d.weight i * (d.br i - (d.infsup x i).mag)) tol _
      (fun x i hi => by unfold nlTolCalcfg; simp only [hi]; exact ⟨_, rfl⟩) htol)
  · exact nlMaximize_spec _ P big con x0 (fun x => uni x - pen x) (key
      (fun x i => d.weight i * (d.br i - (d.infsup x i).mig)) uni _
      (fun x i hi => by unfold nlUniCalcfg; simp only [hi]; exact ⟨_, rfl⟩) huni)

/-- For a system without rows the first evaluation raises. -/
example (P : RalgPar ℚ 1) (d : NlData ℚ 0 1) : nlMaximize (nlTolCalcfg d) P 1 none (fun _ => 0) = .error .valueError ∧
    nlMaximize (nlUniCalcfg d) P 1 none (fun _ => 0) = .error .valueError := ⟨rfl, rfl⟩

end IntvalPy
