import Verif.PropsGauss
import Verif.PropsNewtonExist
import Verif.PropsMiranda
import Verif.ProofsFloat
import Mathlib.LinearAlgebra.Matrix.ToLinearEquiv
import Mathlib.Topology.Connected.Clopen
import Mathlib.Topology.Algebra.Order.Archimedean
import Mathlib.Analysis.SpecificLimits.Basic

/-!
# When the result of `Gauss_Seidel` proves that every system has exactly one solution (C150)

/repo/intvalpy/linear/Gauss_Seidel.py.  `Gauss_Seidel` only promises that no solution in the start box is lost (C38),
and its own test for an H-matrix does not establish that the matrix is regular (C93).  Here: a returned box in the
interior of the start box proves that every matrix of the interval matrix is regular, and that the solutions of all the
systems, wherever they are, lie in the returned box.  The box has rational (for instance binary64) endpoints and the
systems have real coefficients.
-/

set_option autoImplicit false
set_option linter.unusedSectionVars false

namespace IntvalPy
open Spec Filter Topology

/-! ## Real points of intervals with rational endpoints -/

/-- The real number lies between the endpoints. -/
def InIvR (t : ℝ) (X : Iv ℚ) : Prop := (X.a : ℝ) ≤ t ∧ t ≤ (X.b : ℝ)

theorem inIvR_of_mem (q : ℚ) (X : Iv ℚ) (h : q ∈ X) : InIvR (q : ℝ) X := ⟨by exact_mod_cast h.1, by exact_mod_cast h.2⟩

theorem inIvR_seq (t : ℝ) (X : Iv ℚ) (h : InIvR t X) :
    ∃ u : ℕ → ℚ, (∀ m, u m ∈ X) ∧ Tendsto (fun m => (u m : ℝ)) atTop (𝓝 t) := by
  rcases h.1.eq_or_lt with ha | ha
  · refine ⟨fun _ => X.a, fun _ => ⟨le_refl _, ?_⟩, ?_⟩
    · exact_mod_cast h.1.trans h.2
    · rw [← ha]; exact tendsto_const_nhds
  · have : ∀ m : ℕ, ∃ q : ℚ, max (X.a : ℝ) (t - 1 / ((m : ℝ) + 1)) < q ∧ (q : ℝ) < t := fun m =>
      exists_rat_btwn (max_lt ha (sub_lt_self _ (by positivity)))
    choose u hu using this
    refine ⟨u, fun m => ⟨?_, ?_⟩, ?_⟩
    · exact_mod_cast ((le_max_left _ _).trans (hu m).1.le)
    · exact_mod_cast ((hu m).2.le.trans h.2)
    · have h1 : Tendsto (fun m : ℕ => t - 1 / ((m : ℝ) + 1)) atTop (𝓝 t) := by
        simpa using tendsto_const_nhds.sub (tendsto_one_div_add_atTop_nhds_zero_nat (𝕜 := ℝ))
      exact tendsto_of_tendsto_of_tendsto_of_le_of_le h1 tendsto_const_nhds
        (fun m => ((le_max_right _ _).trans (hu m).1.le)) (fun m => (hu m).2.le)

/-- An interval that holds the values of a continuous function at the rational points of a box holds its values at
the real points. -/
theorem inIvR_of_rat {ι : Type*} (B : ι → Iv ℚ) (f : (ι → ℝ) → ℝ) (t : ι → ℝ) (ht : ∀ i, InIvR (t i) (B i))
    (hf : ContinuousAt f t) (I : Iv ℚ)
    (hI : ∀ u : ι → ℚ, (∀ i, u i ∈ B i) → InIvR (f fun i => (u i : ℝ)) I) : InIvR (f t) I := by
  choose u hu hl using fun i => inIvR_seq (t i) (B i) (ht i)
  have h1 : Tendsto (fun m i => (u i m : ℝ)) atTop (𝓝 t) := tendsto_pi_nhds.mpr hl
  have h2 : Tendsto (fun m => f fun i => (u i m : ℝ)) atTop (𝓝 (f t)) := hf.tendsto.comp h1
  have h3 := fun m => hI (fun i => u i m) fun i => hu i m
  exact ⟨ge_of_tendsto' h2 fun m => (h3 m).1, le_of_tendsto' h2 fun m => (h3 m).2⟩

/-! ## One component of a pass -/

/-- What `new_bar` encloses. -/
theorem gsBar_encloses (R : Rnd ℚ) {n : ℕ} (A : Fin n → Fin n → Iv ℚ) (b res pre : Fin n → Iv ℚ)
    (hA : ∀ i j, Ordinary (A i j)) (hb : ∀ i, Ordinary (b i)) (hpre : ∀ i, Ordinary (pre i)) (k : Fin n)
    (hres : ∀ j, j < k → Ordinary (res j)) (bar : Iv ℚ) (h : gsBar R A b res pre k = .ok bar) :
    ¬ (0 : ℚ) ∈ A k k ∧ ∀ (A' x : Fin n → ℚ) (b' : ℚ), (∀ j, A' j ∈ A k j) → b' ∈ b k →
      (∀ j, x j ∈ if j < k then res j else pre j) →
      (b' - (∑ j, A' j * x j - A' k * x k)) / A' k ∈ bar ∧ Ordinary bar := by
  have key : ∀ (A' x : Fin n → ℚ) (b' : ℚ), (∀ j, A' j ∈ A k j) → b' ∈ b k →
      (∀ j, x j ∈ if j < k then res j else pre j) → ¬ (0 : ℚ) ∈ A k k ∧
      (b' - (∑ j, A' j * x j - A' k * x k)) / A' k ∈ bar ∧ Ordinary bar := by
    intro A' x b' hA' hb' hx
    obtain ⟨h1, h1'⟩ := subSum_encloses R (b k) b' (hb k) hb'
      ((List.finRange n).filter fun j => j < k) (fun j => (A k j).mul R (res j)) (fun j => A' j * x j)
      (fun j hj => by
        have hj' : j < k := by simpa using (List.mem_filter.mp hj).2
        have hxj := hx j
        rw [if_pos hj'] at hxj
        exact mul_point R _ _ (hA k j) (hres j hj') _ _ (hA' j) hxj)
    obtain ⟨h2, h2'⟩ := subSum_encloses R _ _ h1' h1
      ((List.finRange n).filter fun j => k < j) (fun j => (A k j).mul R (pre j)) (fun j => A' j * x j)
      (fun j hj => by
        have hj' : k < j := by simpa using (List.mem_filter.mp hj).2
        have hxj := hx j
        rw [if_neg (not_lt.mpr hj'.le)] at hxj
        exact mul_point R _ _ (hA k j) (hpre j) _ _ (hA' j) hxj)
    have heq : b' - (∑ j, A' j * x j - A' k * x k) =
        b' - (((List.finRange n).filter fun j => j < k).map fun j => A' j * x j).sum
        - (((List.finRange n).filter fun j => k < j).map fun j => A' j * x j).sum := by
      rw [sum_split _ k]; ring
    unfold gsBar at h
    have h0 : ¬ (0 : ℚ) ∈ A k k := fun h0 => by
      rw [((C03_div_error_iff R _ _ h2' (hA k k)).1).mpr h0] at h; cases h
    have hk : A' k ≠ 0 := fun e => h0 (e ▸ hA' k)
    refine ⟨h0, ?_⟩
    rw [heq]
    exact div_point R _ _ bar h2' (hA k k) h _ _ _ h2 (hA' k) (by rw [mul_div_cancel₀ _ hk])
  refine ⟨?_, fun A' x b' h1 h2 h3 => (key A' x b' h1 h2 h3).2⟩
  refine (key (fun j => (A k j).a) (fun j => (if j < k then res j else pre j).a) (b k).a
    (fun j => ⟨le_refl _, (hA k j).2⟩) ⟨le_refl _, (hb k).2⟩ (fun j => ⟨le_refl _, ?_⟩)).1
  split_ifs with hj
  · exact (hres j hj).2
  · exact (hpre j).2

/-- The same for real points. -/
theorem gsBar_real (R : Rnd ℚ) {n : ℕ} (A : Fin n → Fin n → Iv ℚ) (b res pre : Fin n → Iv ℚ)
    (hA : ∀ i j, Ordinary (A i j)) (hb : ∀ i, Ordinary (b i)) (hpre : ∀ i, Ordinary (pre i)) (k : Fin n)
    (hres : ∀ j, j < k → Ordinary (res j)) (bar : Iv ℚ) (h : gsBar R A b res pre k = .ok bar)
    (A' x : Fin n → ℝ) (b' : ℝ) (hA' : ∀ j, InIvR (A' j) (A k j)) (hb' : InIvR b' (b k))
    (hx : ∀ j, InIvR (x j) (if j < k then res j else pre j)) :
    A' k ≠ 0 ∧ InIvR ((b' - (∑ j, A' j * x j - A' k * x k)) / A' k) bar := by
  obtain ⟨h0, henc⟩ := gsBar_encloses R A b res pre hA hb hpre k hres bar h
  have hk : A' k ≠ 0 := fun e => h0 ⟨by exact_mod_cast e ▸ (hA' k).1, by exact_mod_cast e ▸ (hA' k).2⟩
  refine ⟨hk, ?_⟩
  let B : Fin n ⊕ Fin n ⊕ Unit → Iv ℚ :=
    Sum.elim (A k) (Sum.elim (fun j => if j < k then res j else pre j) fun _ => b k)
  let f : (Fin n ⊕ Fin n ⊕ Unit → ℝ) → ℝ := fun t =>
    (t (.inr (.inr ())) - (∑ j, t (.inl j) * t (.inr (.inl j)) - t (.inl k) * t (.inr (.inl k)))) / t (.inl k)
  refine inIvR_of_rat B f (Sum.elim A' (Sum.elim x fun _ => b')) ?_ ?_ bar ?_
  · rintro (j | j | j)
    · exact hA' j
    · exact hx j
    · exact hb'
  · refine ContinuousAt.div ?_ (continuous_apply _).continuousAt hk
    have c := fun i => continuous_apply (A := fun _ : Fin n ⊕ Fin n ⊕ Unit => ℝ) i
    exact ((c (.inr (.inr ()))).sub ((continuous_finset_sum _ fun j _ => (c (.inl j)).mul (c (.inr (.inl j)))).sub
      ((c (.inl k)).mul (c (.inr (.inl k)))))).continuousAt
  · intro u hu
    have := (henc (fun j => u (.inl j)) (fun j => u (.inr (.inl j))) (u (.inr (.inr ()))) (fun j => hu (.inl j))
      (hu (.inr (.inr ()))) fun j => hu (.inr (.inl j))).1
    have h2 := inIvR_of_mem _ _ this
    push_cast at h2
    exact h2

/-! ## The point that stays -/

/-- The component `k` of the solution of equation `k`, the others given. -/
noncomputable def solveRow {n : ℕ} (A' : Fin n → Fin n → ℝ) (b' x : Fin n → ℝ) (k : Fin n) : ℝ :=
  (b' k - (∑ j, A' k j * x j - A' k k * x k)) / A' k k

/-- `x` solves each equation as well as the box allows: where the solution of equation `k` is outside the box, the
component is the nearest end. -/
def Clamped {n : ℕ} (box : Fin n → Iv ℚ) (A' : Fin n → Fin n → ℝ) (b' x : Fin n → ℝ) : Prop :=
  ∀ k, x k = max ((box k).a : ℝ) (min ((box k).b : ℝ) (solveRow A' b' x k))

/-- There is such a point. -/
theorem clamped_exists {n : ℕ} (box : Fin n → Iv ℚ) (hbox : ∀ k, Ordinary (box k)) (A' : Fin n → Fin n → ℝ)
    (b' : Fin n → ℝ) : ∃ x, Clamped box A' b' x := by
  obtain ⟨x, _, hx⟩ := Miranda.poincare_miranda (fun k => ((box k).a : ℝ)) (fun k => ((box k).b : ℝ))
    (fun k => by exact_mod_cast (hbox k).2)
    (fun x k => x k - max ((box k).a : ℝ) (min ((box k).b : ℝ) (solveRow A' b' x k)))
    (by
      refine Continuous.continuousOn (continuous_pi fun k => ?_)
      refine (continuous_apply k).sub (continuous_const.max (continuous_const.min ?_))
      refine Continuous.div_const ?_ _
      exact continuous_const.sub ((continuous_finset_sum _ fun j _ => continuous_const.mul (continuous_apply j)).sub
        (continuous_const.mul (continuous_apply k))))
    (fun k x _ he => by
      rw [he]
      exact sub_nonpos.mpr (le_max_left _ _))
    (fun k x _ he => by
      rw [he]
      refine sub_nonneg.mpr (max_le ?_ (min_le_left _ _))
      exact_mod_cast (hbox k).2)
  exact ⟨x, fun k => sub_eq_zero.mp (hx k)⟩

/-- The component is beyond an end of the start box, up to `m`. -/
def Lost (box X : Iv ℚ) (m : ℚ) : Prop := X.b ≤ box.a + m ∨ box.b - m ≤ X.a

/-- Intersecting with what encloses the solution of the equation keeps the component, or moves the interval beyond
the end of the start box at which the component is. -/
theorem clamped_inter (R : Rnd ℚ) (T : ℚ) (hT : interTol < R.dn T) (box X Z r : Iv ℚ) (t N : ℝ)
    (hc : t = max (box.a : ℝ) (min (box.b : ℝ) N)) (hbox : box.a ≤ box.b) (hX : InIvR t X) (hN : InIvR N Z)
    (h : intersect R X Z = some r) : Ordinary r ∧ (InIvR t r ∨ Lost box r 0) := by
  have hbox' : (box.a : ℝ) ≤ box.b := by exact_mod_cast hbox
  have both : InIvR t Z → Ordinary r ∧ (InIvR t r ∨ Lost box r 0) := by
    intro hZ
    have h1 : ((max X.a Z.a : ℚ) : ℝ) ≤ t := by push_cast; exact max_le hX.1 hZ.1
    have h2 : t ≤ ((min X.b Z.b : ℚ) : ℝ) := by push_cast; exact le_min hX.2 hZ.2
    rcases inter_cases R T hT X Z r h with ⟨rc, ra, rb, ro⟩ | ⟨rc, rb, ra, ro, _⟩
    · exact ⟨⟨rc, ro⟩, Or.inl ⟨by rw [ra]; exact h1, by rw [rb]; exact h2⟩⟩
    · have : max X.a Z.a ≤ min X.b Z.b := by exact_mod_cast h1.trans h2
      rw [← rb, ← ra] at this
      exact absurd ro (not_lt.mpr this)
  rcases le_or_gt N (box.b : ℝ) with h1 | h1
  · rcases le_or_gt (box.a : ℝ) N with h2 | h2
    · have : t = N := by rw [hc, min_eq_right h1, max_eq_right h2]
      exact both (this ▸ hN)
    · -- the solution is below the box
      have ht : t = box.a := by rw [hc, min_eq_right h1, max_eq_left h2.le]
      by_cases hz : t ≤ (Z.b : ℝ)
      · exact both ⟨hN.1.trans (h2.le.trans ht.ge), hz⟩
      · have hz' : Z.b < box.a := by
          have : (Z.b : ℝ) < box.a := ht ▸ not_le.mp hz
          exact_mod_cast this
        have hXa : X.a ≤ box.a := by exact_mod_cast ht ▸ hX.1
        have hZa : Z.a ≤ box.a := by exact_mod_cast hN.1.trans h2.le
        rcases inter_cases R T hT X Z r h with ⟨rc, ra, rb, ro⟩ | ⟨rc, rb, ra, ro, _⟩
        · refine ⟨⟨rc, ro⟩, Or.inr (Or.inl ?_)⟩
          rw [rb, add_zero]; exact (min_le_right _ _).trans hz'.le
        · refine ⟨⟨rc, ro.le⟩, Or.inr (Or.inl ?_)⟩
          rw [rb, add_zero]; exact max_le hXa hZa
  · have ht : t = box.b := by rw [hc, min_eq_left h1.le, max_eq_right hbox']
    by_cases hz : (Z.a : ℝ) ≤ t
    · exact both ⟨hz, (ht.le.trans h1.le).trans hN.2⟩
    · have hz' : box.b < Z.a := by
        have : (box.b : ℝ) < Z.a := ht ▸ not_le.mp hz
        exact_mod_cast this
      have hXb : box.b ≤ X.b := by exact_mod_cast ht ▸ hX.2
      have hZb : box.b ≤ Z.b := by exact_mod_cast h1.le.trans hN.2
      rcases inter_cases R T hT X Z r h with ⟨rc, ra, rb, ro⟩ | ⟨rc, rb, ra, ro, _⟩
      · refine ⟨⟨rc, ro⟩, Or.inr (Or.inr ?_)⟩
        rw [ra, sub_zero]; exact hz'.le.trans (le_max_right _ _)
      · refine ⟨⟨rc, ro.le⟩, Or.inr (Or.inr ?_)⟩
        rw [ra, sub_zero]; exact le_min hXb hZb

/-- An interval beyond an end of the start box stays there, up to the tolerance. -/
theorem lost_inter (R : Rnd ℚ) (T : ℚ) (hT : interTol < R.dn T) (box X Z r : Iv ℚ) (m : ℚ) (hL : Lost box X m)
    (h : intersect R X Z = some r) : Ordinary r ∧ Lost box r (m + T) := by
  have hT0 : 0 ≤ T := ((by unfold interTol; positivity : (0 : ℚ) ≤ interTol).trans hT.le).trans (R.dn_le T)
  rcases inter_cases R T hT X Z r h with ⟨rc, ra, rb, ro⟩ | ⟨rc, rb, ra, ro, hr⟩
  · refine ⟨⟨rc, ro⟩, ?_⟩
    rcases hL with hL | hL
    · left; have := min_le_left X.b Z.b; rw [rb]; linarith
    · right; have := le_max_left X.a Z.a; rw [ra]; linarith
  · refine ⟨⟨rc, ro.le⟩, ?_⟩
    rcases hL with hL | hL
    · left; have := min_le_left X.b Z.b; rw [← ra] at this; linarith
    · right; have := le_max_left X.a Z.a; rw [← rb] at this; linarith

theorem lost_weaken (box X : Iv ℚ) (m m' : ℚ) (h : m ≤ m') (hL : Lost box X m) : Lost box X m' :=
  hL.imp (fun h' => by linarith) fun h' => by linarith

/-- One pass from a box that holds the point. -/
theorem gsSweep_clamped (R : Rnd ℚ) (T : ℚ) (hT : interTol < R.dn T) {n : ℕ} (A : Fin n → Fin n → Iv ℚ)
    (b box pre : Fin n → Iv ℚ) (hA : ∀ i j, Ordinary (A i j)) (hb : ∀ i, Ordinary (b i))
    (hbox : ∀ i, Ordinary (box i)) (hpre : ∀ i, Ordinary (pre i)) (A' : Fin n → Fin n → ℝ) (b' x : Fin n → ℝ)
    (hA' : ∀ i j, InIvR (A' i j) (A i j)) (hb' : ∀ i, InIvR (b' i) (b i)) (hc : Clamped box A' b' x)
    (hx : InBoxR x pre) (ks : List (Fin n)) (hs : ks.Pairwise (· < ·)) (res : Fin n → Iv ℚ)
    (hres : ∀ i, i ∉ ks → Ordinary (res i))
    (hin : (∀ i, i ∉ ks → InIvR (x i) (res i)) ∨ ∃ i, i ∉ ks ∧ Lost (box i) (res i) 0) (res' : Fin n → Iv ℚ)
    (h : gsSweep R A b pre ks res = .ok res') :
    (∀ i, Ordinary (res' i)) ∧ (∀ k ∈ ks, ¬ (0 : ℚ) ∈ A k k) ∧
      (InBoxR x res' ∨ ∃ i, Lost (box i) (res' i) 0) := by
  induction ks generalizing res with
  | nil =>
    simp only [gsSweep, Except.ok.injEq] at h
    subst h
    refine ⟨fun i => hres i (by simp), by simp, ?_⟩
    rcases hin with hin | ⟨i, _, hi⟩
    · exact Or.inl fun i => hin i (by simp)
    · exact Or.inr ⟨i, hi⟩
  | cons k ks ih =>
    have hlt : ∀ j, j < k → j ∉ k :: ks := by
      intro j hj hm
      rcases List.mem_cons.mp hm with e | e
      · exact (e ▸ hj).false
      · exact (hj.trans ((List.pairwise_cons.mp hs).1 j e)).false
    have hk : k ∉ ks := fun hm => ((List.pairwise_cons.mp hs).1 k hm).false
    unfold gsSweep at h
    cases hbar : gsBar R A b res pre k with
    | error e => rw [hbar] at h; cases h
    | ok bar =>
      rw [hbar] at h
      dsimp only at h
      cases hX : intersect R (pre k) bar with
      | none => rw [hX] at h; cases h
      | some X =>
        rw [hX] at h
        dsimp only at h
        have hro : ∀ j, j < k → Ordinary (res j) := fun j hj => hres j (hlt j hj)
        have h0 := (gsBar_encloses R A b res pre hA hb hpre k hro bar hbar).1
        have oX : Ordinary X := by
          rcases inter_cases R T hT _ _ _ hX with ⟨rc, _, _, ro⟩ | ⟨rc, _, _, ro, _⟩
          · exact ⟨rc, ro⟩
          · exact ⟨rc, ro.le⟩
        have step : (InIvR (x k) X ∨ Lost (box k) X 0) ∨ ∃ i, i ∉ k :: ks ∧ Lost (box i) (res i) 0 := by
          rcases hin with hin | hin
          · left
            have := (gsBar_real R A b res pre hA hb hpre k hro bar hbar (A' k) x (b' k) (hA' k) (hb' k) (fun j => by
              split_ifs with hj
              · exact hin j (hlt j hj)
              · exact hx j)).2
            exact (clamped_inter R T hT (box k) (pre k) bar X (x k) _ (hc k) (hbox k).2 (hx k) this hX).2
          · exact Or.inr hin
        have upd : ∀ i, i ∉ ks → i ≠ k → i ∉ k :: ks := fun i hi e => by simp [e, hi]
        obtain ⟨r1, r2, r3⟩ := ih (List.pairwise_cons.mp hs).2 (Function.update res k X)
          (by
            intro i hi
            by_cases e : i = k
            · subst e; simpa using oX
            · rw [Function.update_of_ne e]; exact hres i (upd i hi e))
          (by
            rcases step with (hs1 | hs1) | ⟨i, hi, hs1⟩
            · rcases hin with hin | ⟨i, hi, hl⟩
              · left
                intro i hi
                by_cases e : i = k
                · subst e; simpa using hs1
                · rw [Function.update_of_ne e]; exact hin i (upd i hi e)
              · right
                refine ⟨i, fun hm => hi (by simp [hm]), ?_⟩
                rw [Function.update_of_ne (fun e => hi (by simp [e]))]
                exact hl
            · right
              exact ⟨k, hk, by simpa using hs1⟩
            · right
              refine ⟨i, fun hm => hi (by simp [hm]), ?_⟩
              rw [Function.update_of_ne (fun e => hi (by simp [e]))]
              exact hs1) h
        refine ⟨r1, fun j hj => ?_, r3⟩
        rcases List.mem_cons.mp hj with e | e
        · exact e ▸ h0
        · exact r2 j e

/-- One pass from any box: the components only move by the tolerance beyond the box before. -/
theorem gsSweep_lost (R : Rnd ℚ) (T : ℚ) (hT : interTol < R.dn T) {n : ℕ} (A : Fin n → Fin n → Iv ℚ)
    (b box pre : Fin n → Iv ℚ) (m : ℚ) (ks : List (Fin n)) (hs : ks.Pairwise (· < ·)) (res res' : Fin n → Iv ℚ)
    (hres : ∀ i, i ∉ ks → Ordinary (res i) ∧ (Lost (box i) (pre i) m → Lost (box i) (res i) (m + T)))
    (h : gsSweep R A b pre ks res = .ok res') :
    ∀ i, Ordinary (res' i) ∧ (Lost (box i) (pre i) m → Lost (box i) (res' i) (m + T)) := by
  induction ks generalizing res with
  | nil =>
    simp only [gsSweep, Except.ok.injEq] at h
    subst h
    exact fun i => hres i (by simp)
  | cons k ks ih =>
    unfold gsSweep at h
    cases hbar : gsBar R A b res pre k with
    | error e => rw [hbar] at h; cases h
    | ok bar =>
      rw [hbar] at h
      dsimp only at h
      cases hX : intersect R (pre k) bar with
      | none => rw [hX] at h; cases h
      | some X =>
        rw [hX] at h
        dsimp only at h
        refine ih (List.pairwise_cons.mp hs).2 (Function.update res k X) (fun i hi => ?_) h
        by_cases e : i = k
        · subst e
          rw [Function.update_self]
          refine ⟨?_, fun hL => (lost_inter R T hT (box i) (pre i) bar X m hL hX).2⟩
          rcases inter_cases R T hT _ _ _ hX with ⟨rc, _, _, ro⟩ | ⟨rc, _, _, ro, _⟩
          · exact ⟨rc, ro⟩
          · exact ⟨rc, ro.le⟩
        · rw [Function.update_of_ne e]
          exact hres i (by simp [e, hi])

/-- The loop. -/
theorem gsLoop_clamped (R : Rnd ℚ) (T : ℚ) (hT : interTol < R.dn T) {n : ℕ} (A : Fin n → Fin n → Iv ℚ)
    (b box : Fin n → Iv ℚ) (tol : ℚ) (hA : ∀ i j, Ordinary (A i j)) (hb : ∀ i, Ordinary (b i))
    (hbox : ∀ i, Ordinary (box i)) (A' : Fin n → Fin n → ℝ) (b' x : Fin n → ℝ)
    (hA' : ∀ i j, InIvR (A' i j) (A i j)) (hb' : ∀ i, InIvR (b' i) (b i)) (hc : Clamped box A' b' x) :
    ∀ (fuel : ℕ) (d : Option ℚ) (pre res : Fin n → Iv ℚ) (m : ℚ), 0 ≤ m → (∀ i, Ordinary (pre i)) →
      (InBoxR x pre ∨ ∃ i, Lost (box i) (pre i) m) → ((0 < fuel ∧ d = none) ∨ res = pre) →
      ∀ X, gsLoop R A b tol fuel d pre res = .ok X →
        (∀ i, Ordinary (X i)) ∧ (InBoxR x X ∨ ∃ i, Lost (box i) (X i) (m + fuel * T)) := by
  have hT0 : 0 ≤ T := ((by unfold interTol; positivity : (0 : ℚ) ≤ interTol).trans hT.le).trans (R.dn_le T)
  intro fuel
  induction fuel with
  | zero =>
    intro d pre res m hm hpre hin hd X h
    rcases hd with hd | hd
    · exact absurd hd.1 (lt_irrefl _)
    · simp only [gsLoop, Except.ok.injEq] at h
      subst h; subst hd
      simpa using ⟨hpre, hin⟩
  | succ fuel ih =>
    intro d pre res m hm hpre hin hd X h
    have hmT : m ≤ m + ((fuel + 1 : ℕ) : ℚ) * T := le_add_of_nonneg_right (by positivity)
    unfold gsLoop at h
    split_ifs at h with hfar
    · cases hsw : gsSweep R A b pre (List.finRange n) res with
      | error e => rw [hsw] at h; cases h
      | ok res' =>
        rw [hsw] at h
        dsimp only at h
        cases hdv : distVec (List.ofFn res') (List.ofFn pre) with
        | error e => rw [hdv] at h; cases h
        | ok dd =>
          rw [hdv] at h
          dsimp only at h
          have hl := gsSweep_lost R T hT A b box pre m _ (List.pairwise_lt_finRange n) res res'
            (fun i hi => absurd (List.mem_finRange i) hi) hsw
          have hnew : InBoxR x res' ∨ ∃ i, Lost (box i) (res' i) (m + T) := by
            rcases hin with hin | ⟨i, hi⟩
            · rcases (gsSweep_clamped R T hT A b box pre hA hb hbox hpre A' b' x hA' hb' hc hin _
                (List.pairwise_lt_finRange n) res (fun i hi => absurd (List.mem_finRange i) hi)
                (Or.inl fun i hi => absurd (List.mem_finRange i) hi) res' hsw).2.2 with h1 | ⟨i, h1⟩
              · exact Or.inl h1
              · exact Or.inr ⟨i, lost_weaken _ _ _ _ (by linarith) h1⟩
            · exact Or.inr ⟨i, (hl i).2 hi⟩
          obtain ⟨r1, r2⟩ := ih (some dd) res' res' (m + T) (by linarith) (fun i => (hl i).1) hnew (Or.inr rfl) X h
          refine ⟨r1, r2.imp id fun ⟨i, hi⟩ => ⟨i, ?_⟩⟩
          convert hi using 1
          push_cast; ring
    · have hres : res = pre := by
        rcases hd with hd | hd
        · rw [hd.2] at hfar; exact absurd rfl hfar
        · exact hd
      simp only [Except.ok.injEq] at h
      subst h; subst hres
      exact ⟨hpre, hin.imp id fun ⟨i, hi⟩ => ⟨i, lost_weaken _ _ _ _ hmT hi⟩⟩

/-! ## The preconditioned system -/

/-- The preconditioned intervals hold the entries of the preconditioned real system. -/
theorem precond_real (R : Rnd ℚ) {n : ℕ} (C : Precond ℚ n) (A : Fin n → Fin n → Iv ℚ) (b : Fin n → Iv ℚ)
    (hC : ∀ D, C = .iv D → ∀ i j, Ordinary (D i j)) (hA : ∀ i j, Ordinary (A i j)) (hb : ∀ i, Ordinary (b i)) :
    (∀ i j, Ordinary (C.mulMat R A i j)) ∧ (∀ i, Ordinary (C.mulVec R b i)) ∧
    ∃ P : Fin n → Fin n → ℝ, ∀ (A' : Fin n → Fin n → ℝ) (b' : Fin n → ℝ), (∀ i j, InIvR (A' i j) (A i j)) →
      (∀ i, InIvR (b' i) (b i)) → (∀ i l, InIvR (∑ j, P i j * A' j l) (C.mulMat R A i l)) ∧
      ∀ i, InIvR (∑ j, P i j * b' j) (C.mulVec R b i) := by
  rcases Nat.eq_zero_or_pos n with rfl | hn
  · exact ⟨fun i => i.elim0, fun i => i.elim0, fun i => i.elim0, fun A' b' _ _ => ⟨fun i => i.elim0, fun i => i.elim0⟩⟩
  obtain ⟨P, hP⟩ : ∃ P : Fin n → Fin n → ℚ, ∀ (A' : Fin n → Fin n → ℚ) (b' : Fin n → ℚ), (∀ i j, A' i j ∈ A i j) →
      (∀ i, b' i ∈ b i) → (∀ i l, Ordinary (C.mulMat R A i l) ∧ ∑ j, P i j * A' j l ∈ C.mulMat R A i l) ∧
      (∀ i, Ordinary (C.mulVec R b i) ∧ ∑ j, P i j * b' j ∈ C.mulVec R b i) := by
    cases C with
    | point C =>
      refine ⟨C, fun A' b' hA' hb' => ⟨fun i l => ?_, fun i => ?_⟩⟩
      · obtain ⟨Z, h1, h2, h3⟩ := (C26_matmul_point_encloses R (fun j => A j l) (C i) hn (fun j => hA j l)
          (fun j => A' j l) fun j => hA' j l).2
        simp only [Precond.mulMat, h1, dotEntry, Option.getD_some]
        exact ⟨h2, h3⟩
      · obtain ⟨Z, h1, h2, h3⟩ := (C26_matmul_point_encloses R b (C i) hn hb b' hb').2
        simp only [Precond.mulVec, h1, dotEntry, Option.getD_some]
        exact ⟨h2, h3⟩
    | iv D =>
      have hD := hC D rfl
      refine ⟨fun i j => (D i j).a, fun A' b' hA' hb' => ⟨fun i l => ?_, fun i => ?_⟩⟩
      · obtain ⟨Z, h1, h2, h3⟩ := C26_matmul_encloses R D A hn hD hA (fun i j => (D i j).a) A'
          (fun i j => ⟨le_refl _, (hD i j).2⟩) hA' i l
        simp only [Precond.mulMat, h1, dotEntry, Option.getD_some]
        exact ⟨h2, h3⟩
      · obtain ⟨Z, h1, h2, h3⟩ := C26_matmul_encloses R D (fun j (_ : Fin 1) => b j) hn hD
          (fun j _ => hb j) (fun i j => (D i j).a) (fun j _ => b' j)
          (fun i j => ⟨le_refl _, (hD i j).2⟩) (fun j _ => hb' j) i 0
        simp only [Precond.mulVec, h1, dotEntry, Option.getD_some]
        exact ⟨h2, h3⟩
  have left := hP (fun i j => (A i j).a) (fun i => (b i).a) (fun i j => ⟨le_refl _, (hA i j).2⟩)
    fun i => ⟨le_refl _, (hb i).2⟩
  refine ⟨fun i j => (left.1 i j).1, fun i => (left.2 i).1, fun i j => (P i j : ℝ), fun A' b' hA' hb' =>
    ⟨fun i l => ?_, fun i => ?_⟩⟩
  · refine inIvR_of_rat (fun j => A j l) (fun t => ∑ j, (P i j : ℝ) * t j) (fun j => A' j l) (fun j => hA' j l)
      (continuous_finset_sum _ fun j _ => continuous_const.mul (continuous_apply j)).continuousAt _ fun u hu => ?_
    have := inIvR_of_mem _ _ ((hP (fun j l' => if l' = l then u j else (A j l').a) (fun i => (b i).a) (fun j l' => by
      split_ifs with e
      · exact e ▸ hu j
      · exact ⟨le_refl _, (hA j l').2⟩) fun i => ⟨le_refl _, (hb i).2⟩).1 i l).2
    simpa using this
  · refine inIvR_of_rat b (fun t => ∑ j, (P i j : ℝ) * t j) b' hb'
      (continuous_finset_sum _ fun j _ => continuous_const.mul (continuous_apply j)).continuousAt _ fun u hu => ?_
    have := inIvR_of_mem _ _ ((hP (fun i j => (A i j).a) u (fun i j => ⟨le_refl _, (hA i j).2⟩) hu).2 i).2
    simpa using this

/-! ## The conclusion -/

/-- A line of solutions leaves the box, so a matrix with a kernel has no solution of its equations strictly inside
when all the solutions in the box are strictly inside. -/
theorem regular_of_inside {n : ℕ} (lo hi : Fin n → ℝ) (M : Matrix (Fin n) (Fin n) ℝ) (r : Fin n → ℝ)
    (hall : ∀ y, (∀ i, lo i ≤ y i ∧ y i ≤ hi i) → M.mulVec y = r → ∀ i, lo i < y i ∧ y i < hi i) (x : Fin n → ℝ)
    (hx : ∀ i, lo i ≤ x i ∧ x i ≤ hi i) (hs : M.mulVec x = r) : M.det ≠ 0 := by
  intro hd
  obtain ⟨v, hv, hMv⟩ := Matrix.exists_mulVec_eq_zero_iff.mpr hd
  have sol : ∀ s : ℝ, M.mulVec (x + s • v) = r := fun s => by
    rw [Matrix.mulVec_add, Matrix.mulVec_smul, hMv, smul_zero, add_zero, hs]
  have cont : Continuous fun s : ℝ => x + s • v := continuous_const.add (continuous_id.smul continuous_const)
  let S : Set ℝ := {s | ∀ i, lo i ≤ (x + s • v) i ∧ (x + s • v) i ≤ hi i}
  have hS : S = (fun s : ℝ => x + s • v) ⁻¹' Set.Icc lo hi := by
    ext s
    exact ⟨fun h => ⟨fun i => (h i).1, fun i => (h i).2⟩, fun h i => ⟨h.1 i, h.2 i⟩⟩
  have hS' : S = (fun s : ℝ => x + s • v) ⁻¹' Set.pi Set.univ fun i => Set.Ioo (lo i) (hi i) := by
    ext s
    exact ⟨fun h i _ => hall _ h (sol s) i, fun h i => ⟨(h i trivial).1.le, (h i trivial).2.le⟩⟩
  have clopen : IsClopen S := by
    constructor
    · rw [hS]; exact isClosed_Icc.preimage cont
    · rw [hS']; exact (isOpen_set_pi Set.finite_univ fun i _ => isOpen_Ioo).preimage cont
  have huniv : S = Set.univ := clopen.eq_univ ⟨0, fun i => by simpa using hx i⟩
  obtain ⟨i, hi0⟩ : ∃ i, v i ≠ 0 := by
    by_contra hc
    exact hv (funext fun i => by_contra fun h => hc ⟨i, h⟩)
  have := ((huniv ▸ Set.mem_univ ((hi i - x i + 1) / v i) : (hi i - x i + 1) / v i ∈ S) i).2
  simp only [Pi.add_apply, Pi.smul_apply, smul_eq_mul, div_mul_cancel₀ _ hi0] at this
  linarith

/-- C150: for every rounding, size, preconditioner, tolerance and iteration limit `maxiter ≥ 0`, whatever
`np.linalg.inv` returns: if the box returned by `Gauss_Seidel` lies in the interior of the start box (and not within
the total tolerance of the intersections of an end of it), then every real matrix in `A` is regular, and for every real
right-hand side in `b` the solution of the system lies in the returned box. -/
theorem C150_gauss_seidel (R : Rnd ℚ) (T : ℚ) (hT : interTol < R.dn T) {n : ℕ}
    (inv : (Fin n → Fin n → ℚ) → Except Err (Fin n → Fin n → ℚ))
    (A : Fin n → Fin n → Iv ℚ) (b : Fin n → Iv ℚ) (x0 : Option (Fin n → Iv ℚ)) (C : Option (Precond ℚ n))
    (tol : ℚ) (maxiter : ℤ) (hm : 0 ≤ maxiter)
    (hC : ∀ D, C = some (.iv D) → ∀ i j, Ordinary (D i j))
    (hA : ∀ i j, Ordinary (A i j)) (hb : ∀ i, Ordinary (b i))
    (hx0 : ∀ X, x0 = some X → ∀ i, Ordinary (X i)) (box : Fin n → Iv ℚ)
    (hbox : box = match x0 with | none => fun _ => ⟨.classical, -1000, 1000⟩ | some X => X)
    (X : Fin n → Iv ℚ) (h : gaussSeidel R inv A b x0 C tol maxiter = .ok X)
    (hin : ∀ i, WellInside (X i) (box i) ((maxiter + 1) * T))
    (A' : Matrix (Fin n) (Fin n) ℝ) (hA' : ∀ i j, InIvR (A' i j) (A i j)) :
    A'.det ≠ 0 ∧ ∀ b' : Fin n → ℝ, (∀ i, InIvR (b' i) (b i)) →
      (∃ x : Fin n → ℝ, ∀ i, ∑ j, A' i j * x j = b' i) ∧
      ∀ x : Fin n → ℝ, (∀ i, ∑ j, A' i j * x j = b' i) → InBoxR x X := by
  have hbox' : box = gsStart x0 := by rw [hbox]; cases x0 <;> rfl
  have hord : ∀ i, Ordinary (box i) := by
    rw [hbox]
    cases x0 with
    | none => intro i; exact ⟨rfl, by norm_num⟩
    | some X => exact hx0 X rfl
  unfold gaussSeidel at h
  cases hP : gsPrecond R inv A C with
  | error e => rw [hP] at h; cases h
  | ok Q =>
    rw [hP] at h
    dsimp only at h
    have hPC : ∀ D, Q = .iv D → ∀ i j, Ordinary (D i j) := by
      intro D hD
      cases C with
      | some C => simp only [gsPrecond, Except.ok.injEq] at hP; exact hC D (by rw [hP, hD])
      | none =>
        simp only [gsPrecond] at hP
        cases hi : inv (fun i j => (A i j).mid R) with
        | error e => rw [hi] at hP; cases hP
        | ok v => rw [hi] at hP; subst hD; cases hP
    obtain ⟨oA, ob, P, hP'⟩ := precond_real R Q A b hPC hA hb
    cases hB : inv (compmat (Q.mulMat R A)) with
    | error e => rw [hB] at h; cases h
    | ok B =>
      rw [hB] at h
      dsimp only at h
      split_ifs at h with hH
      rw [← hbox'] at h
      -- the first pass divides by all the diagonal entries
      have diag : ∀ k, ¬ (0 : ℚ) ∈ Q.mulMat R A k k := by
        obtain ⟨f, hf⟩ : ∃ f, (maxiter + 1).toNat = f + 1 := ⟨maxiter.toNat, by omega⟩
        rw [hf] at h
        unfold gsLoop at h
        rw [if_pos (by rfl)] at h
        cases hsw : gsSweep R (Q.mulMat R A) (Q.mulVec R b) box (List.finRange n) fun _ => zeroIv with
        | error e => rw [hsw] at h; cases h
        | ok res' =>
          have a0 : ∀ i j, InIvR (((Q.mulMat R A i j).a : ℚ) : ℝ) (Q.mulMat R A i j) := fun i j =>
            inIvR_of_mem _ _ ⟨le_refl _, (oA i j).2⟩
          have b0 : ∀ i, InIvR (((Q.mulVec R b i).a : ℚ) : ℝ) (Q.mulVec R b i) := fun i =>
            inIvR_of_mem _ _ ⟨le_refl _, (ob i).2⟩
          obtain ⟨x, hx⟩ := clamped_exists box hord (fun i j => (((Q.mulMat R A i j).a : ℚ) : ℝ))
            fun i => (((Q.mulVec R b i).a : ℚ) : ℝ)
          have hxb : InBoxR x box := fun k => by
            rw [hx k]
            refine ⟨le_max_left _ _, max_le ?_ (min_le_left _ _)⟩
            exact_mod_cast (hord k).2
          exact fun k => (gsSweep_clamped R T hT _ _ box box oA ob hord hord _ _ x a0 b0 hx hxb _
            (List.pairwise_lt_finRange n) _ (fun i hi => absurd (List.mem_finRange i) hi)
            (Or.inl fun i hi => absurd (List.mem_finRange i) hi) res' hsw).2.1 k (List.mem_finRange k)
      -- every clamped point is strictly inside
      have inside : ∀ b' : Fin n → ℝ, (∀ i, InIvR (b' i) (b i)) → ∀ x,
          Clamped box (fun i l => ∑ j, P i j * A' j l) (fun i => ∑ j, P i j * b' j) x →
          InBoxR x X ∧ ∀ i, ((box i).a : ℝ) < x i ∧ x i < (box i).b := by
        intro b' hb' x hx
        obtain ⟨p1, p2⟩ := hP' A' b' hA' hb'
        have hxb : InBoxR x box := fun k => by
          rw [hx k]
          refine ⟨le_max_left _ _, max_le ?_ (min_le_left _ _)⟩
          exact_mod_cast (hord k).2
        have := (gsLoop_clamped R T hT _ _ box tol oA ob hord _ _ x p1 p2 hx _ none box (fun _ => zeroIv) 0 (le_refl _)
          hord (Or.inl hxb) (Or.inl ⟨by omega, rfl⟩) X h).2
        have hfuel : (((maxiter + 1).toNat : ℕ) : ℚ) = (maxiter : ℚ) + 1 := by
          have : (((maxiter + 1).toNat : ℕ) : ℤ) = maxiter + 1 := Int.toNat_of_nonneg (by omega)
          exact_mod_cast congrArg (fun z : ℤ => (z : ℚ)) this
        rw [zero_add, hfuel] at this
        rcases this with hX | ⟨i, hi⟩
        · refine ⟨hX, fun i => ⟨lt_of_lt_of_le ?_ (hX i).1, lt_of_le_of_lt (hX i).2 ?_⟩⟩
          · exact_mod_cast (hin i).1
          · exact_mod_cast (hin i).2.1
        · obtain ⟨_, _, w1, w2⟩ := hin i
          rcases hi with hi | hi
          · exact absurd (hi.trans_lt w1) (lt_irrefl _)
          · exact absurd (hi.trans_lt w2) (lt_irrefl _)
      -- solutions of the preconditioned system
      let M : Matrix (Fin n) (Fin n) ℝ := (Matrix.of P) * A'
      have hM : ∀ i l, M i l = ∑ j, P i j * A' j l := fun i l => rfl
      have diagM : ∀ k, M k k ≠ 0 := fun k e => by
        have h1 := (hP' A' (fun i => ((b i).a : ℝ)) hA' fun i => inIvR_of_mem _ _ ⟨le_refl _, (hb i).2⟩).1 k k
        rw [← hM, e] at h1
        exact diag k ⟨by exact_mod_cast h1.1, by exact_mod_cast h1.2⟩
      have row : ∀ (b' x : Fin n → ℝ) (k : Fin n),
          solveRow (fun i l => ∑ j, P i j * A' j l) (fun i => ∑ j, P i j * b' j) x k = x k ↔
          M.mulVec x k = (Matrix.of P).mulVec b' k := by
        intro b' x k
        have e1 : M.mulVec x k = ∑ l, (∑ j, P k j * A' j l) * x l := rfl
        have e2 : (Matrix.of P).mulVec b' k = ∑ j, P k j * b' j := rfl
        have dk := diagM k
        rw [hM] at dk
        rw [e1, e2]
        unfold solveRow
        rw [div_eq_iff dk]
        constructor <;> intro h' <;> linarith
      have cl : ∀ b' x : Fin n → ℝ, InBoxR x box → M.mulVec x = (Matrix.of P).mulVec b' →
          Clamped box (fun i l => ∑ j, P i j * A' j l) (fun i => ∑ j, P i j * b' j) x := by
        intro b' x hx he k
        rw [(row b' x k).mpr (congrFun he k), min_eq_right (hx k).2, max_eq_right (hx k).1]
      have exi : ∀ b' : Fin n → ℝ, (∀ i, InIvR (b' i) (b i)) → ∃ x, InBoxR x box ∧
          M.mulVec x = (Matrix.of P).mulVec b' := by
        intro b' hb'
        obtain ⟨x, hx⟩ := clamped_exists box hord (fun i l => ∑ j, P i j * A' j l) fun i => ∑ j, P i j * b' j
        obtain ⟨_, hs⟩ := inside b' hb' x hx
        refine ⟨x, fun k => ⟨(hs k).1.le, (hs k).2.le⟩, funext fun k => (row b' x k).mp ?_⟩
        have := hx k
        rcases le_or_gt (solveRow (fun i l => ∑ j, P i j * A' j l) (fun i => ∑ j, P i j * b' j) x k) ((box k).a : ℝ)
          with h1 | h1
        · rw [max_eq_left ((min_le_right _ _).trans h1)] at this
          exact absurd (hs k).1 (by rw [this]; exact lt_irrefl _)
        · rcases le_or_gt ((box k).b : ℝ) (solveRow (fun i l => ∑ j, P i j * A' j l) (fun i => ∑ j, P i j * b' j) x k)
            with h2 | h2
          · rw [min_eq_left h2, max_eq_right (by exact_mod_cast (hord k).2)] at this
            exact absurd (hs k).2 (by rw [this]; exact lt_irrefl _)
          · rw [min_eq_right h2.le, max_eq_right h1.le] at this
            exact this.symm
      have hdet : M.det ≠ 0 := by
        obtain ⟨x, hx, hs⟩ := exi (fun i => ((b i).a : ℝ)) fun i => inIvR_of_mem _ _ ⟨le_refl _, (hb i).2⟩
        exact regular_of_inside (fun i => ((box i).a : ℝ)) (fun i => ((box i).b : ℝ)) M _ (fun y hy he =>
          (inside _ (fun i => inIvR_of_mem _ _ ⟨le_refl _, (hb i).2⟩) y (cl _ y hy he)).2) x hx hs
      have hdet' : (Matrix.of P).det ≠ 0 ∧ A'.det ≠ 0 := by
        have : (Matrix.of P).det * A'.det ≠ 0 := by rw [← Matrix.det_mul]; exact hdet
        exact ⟨left_ne_zero_of_mul this, right_ne_zero_of_mul this⟩
      have inj : ∀ v, M.mulVec v = 0 → v = 0 := fun v hv => Matrix.eq_zero_of_mulVec_eq_zero hdet hv
      refine ⟨hdet'.2, fun b' hb' => ?_⟩
      obtain ⟨x, hx, hs⟩ := exi b' hb'
      have hsol : A'.mulVec x = b' := by
        have : (Matrix.of P).mulVec (A'.mulVec x - b') = 0 := by
          rw [Matrix.mulVec_sub, Matrix.mulVec_mulVec]
          exact sub_eq_zero.mpr hs
        exact sub_eq_zero.mp (Matrix.eq_zero_of_mulVec_eq_zero hdet'.1 this)
      refine ⟨⟨x, fun i => congrFun hsol i⟩, fun y hy => ?_⟩
      have hy' : A'.mulVec y = b' := funext hy
      have : y = x := by
        have : A'.mulVec (y - x) = 0 := by rw [Matrix.mulVec_sub, hy', hsol, sub_self]
        exact sub_eq_zero.mp (Matrix.eq_zero_of_mulVec_eq_zero hdet'.2 this)
      rw [this]
      exact (inside b' hb' x (cl b' x hx hs)).1

/-- C150: then the whole united solution set lies in the returned box, not only its part in the start box (which is
what C38 gives).  For the default start box this means: a result in the interior of `[-1000, 1000]ⁿ` encloses all
solutions. -/
theorem C150_encloses_all (R : Rnd ℚ) (T : ℚ) (hT : interTol < R.dn T) {n : ℕ}
    (inv : (Fin n → Fin n → ℚ) → Except Err (Fin n → Fin n → ℚ))
    (A : Fin n → Fin n → Iv ℚ) (b : Fin n → Iv ℚ) (x0 : Option (Fin n → Iv ℚ)) (C : Option (Precond ℚ n))
    (tol : ℚ) (maxiter : ℤ) (hm : 0 ≤ maxiter)
    (hC : ∀ D, C = some (.iv D) → ∀ i j, Ordinary (D i j))
    (hA : ∀ i j, Ordinary (A i j)) (hb : ∀ i, Ordinary (b i))
    (hx0 : ∀ X, x0 = some X → ∀ i, Ordinary (X i)) (box : Fin n → Iv ℚ)
    (hbox : box = match x0 with | none => fun _ => ⟨.classical, -1000, 1000⟩ | some X => X)
    (X : Fin n → Iv ℚ) (h : gaussSeidel R inv A b x0 C tol maxiter = .ok X)
    (hin : ∀ i, WellInside (X i) (box i) ((maxiter + 1) * T)) (x : Fin n → ℚ) (hx : United A b x) : InVec x X := by
  obtain ⟨A', hA', b', hb', he⟩ := hx
  have := (C150_gauss_seidel R T hT inv A b x0 C tol maxiter hm hC hA hb hx0 box hbox X h hin
    (Matrix.of fun i j => (A' i j : ℝ)) fun i j => inIvR_of_mem _ _ (hA' i j)).2 (fun i => (b' i : ℝ))
    (fun i => inIvR_of_mem _ _ (hb' i))
  have hy := this.2 (fun i => (x i : ℝ)) fun i => by
    have := congrArg (fun q : ℚ => (q : ℝ)) (he i)
    simpa [apply] using this
  exact fun i => ⟨Rat.cast_le.mp (hy i).1, Rat.cast_le.mp (hy i).2⟩

/-- Inverse of a two by two matrix. -/
def gsInv2 (M : Fin 2 → Fin 2 → ℚ) : Except Err (Fin 2 → Fin 2 → ℚ) :=
  let d := M 0 0 * M 1 1 - M 0 1 * M 1 0
  if d = 0 then .error .linAlgError else .ok ![![M 1 1 / d, - M 0 1 / d], ![- M 1 0 / d, M 0 0 / d]]

/-- Entries `[3, 4]` on the diagonal and `[0, 1]` beside it. -/
def gsDomA : Fin 2 → Fin 2 → Iv ℚ := ![![⟨.classical, 3, 4⟩, ⟨.classical, 0, 1⟩], ![⟨.classical, 0, 1⟩, ⟨.classical, 3, 4⟩]]

/-- Entries `1` on the diagonal and `[0, 2]` beside it. -/
def gsOnesA : Fin 2 → Fin 2 → Iv ℚ := ![![⟨.classical, 1, 1⟩, ⟨.classical, 0, 2⟩], ![⟨.classical, 0, 2⟩, ⟨.classical, 1, 1⟩]]

/-- The hypotheses are met in binary64 with the default start box and preconditioner, two passes. -/
theorem gsEx_inside : ∃ X, gaussSeidel Rnd.b64 gsInv2 gsDomA (fun _ => ⟨.classical, 1, 2⟩) none none (1 / 10 ^ 12) 1 = .ok X ∧
    ∀ i, WellInside (X i) ⟨.classical, -1000, 1000⟩ (((1 : ℤ) + 1) * (1 / 2 ^ 49)) := by
  have h : (match gaussSeidel Rnd.b64 gsInv2 gsDomA (fun _ => ⟨.classical, 1, 2⟩) none none (1 / 10 ^ 12) 1 with
      | .ok X => decide (∀ i, -1000 < (X i).a ∧ (X i).b < 1000 ∧ -1000 + (((1 : ℤ) : ℚ) + 1) * (1 / 2 ^ 49) < (X i).b ∧
          (X i).a < 1000 - (((1 : ℤ) : ℚ) + 1) * (1 / 2 ^ 49))
      | .error _ => false) = true := by decide +kernel
  cases hX : gaussSeidel Rnd.b64 gsInv2 gsDomA (fun _ => ⟨.classical, 1, 2⟩) none none (1 / 10 ^ 12) 1 with
  | error e => rw [hX] at h; cases h
  | ok X => rw [hX] at h; exact ⟨X, rfl, fun i => (of_decide_eq_true h : ∀ i, _) i⟩

/-- So all the matrices are regular. -/
example (A' : Matrix (Fin 2) (Fin 2) ℝ) (hA' : ∀ i j, InIvR (A' i j) (gsDomA i j)) : A'.det ≠ 0 := by
  obtain ⟨X, hX, hin⟩ := gsEx_inside
  exact (C150_gauss_seidel Rnd.b64 (1 / 2 ^ 49) (by decide +kernel) gsInv2 gsDomA _ none none _ 1 (by norm_num)
    (fun D h => by cases h)
    (by intro i j; fin_cases i <;> fin_cases j <;> exact ⟨rfl, by decide +kernel⟩)
    (fun i => ⟨rfl, by norm_num⟩) (fun X h => by cases h) _ rfl X hX hin A' hA').1

/-- C150: without the condition the result proves nothing.  This interval matrix contains the singular matrix of
ones, it passes the test for an H-matrix, and the start box is returned unchanged. -/
theorem C150_border : (∃ X, gaussSeidel Rnd.exact gsInv2 gsOnesA (fun _ => ⟨.classical, 0, 0⟩)
      (some fun _ => ⟨.classical, -1, 1⟩) (some (.point ![![1, 0], ![0, 1]])) (1 / 10 ^ 12) 5 = .ok X ∧
      ∀ i, X i = ⟨.classical, -1, 1⟩) ∧
    ∃ A' : Fin 2 → Fin 2 → ℚ, InMat A' gsOnesA ∧ ∀ t, (∀ i, apply A' ![t, -t] i = 0) := by
  refine ⟨?_, fun _ _ => 1, ?_, fun t i => by simp [apply]⟩
  · have h : (match gaussSeidel Rnd.exact gsInv2 gsOnesA (fun _ => ⟨.classical, 0, 0⟩)
      (some fun _ => ⟨.classical, -1, 1⟩) (some (.point ![![1, 0], ![0, 1]])) (1 / 10 ^ 12) 5 with
      | .ok X => decide (∀ i, X i = ⟨.classical, -1, 1⟩)
      | .error _ => false) = true := by decide +kernel
    cases hX : gaussSeidel Rnd.exact gsInv2 gsOnesA (fun _ => ⟨.classical, 0, 0⟩)
      (some fun _ => ⟨.classical, -1, 1⟩) (some (.point ![![1, 0], ![0, 1]])) (1 / 10 ^ 12) 5 with
    | error e => rw [hX] at h; cases h
    | ok X => rw [hX] at h; exact ⟨X, rfl, of_decide_eq_true h⟩
  · intro i j
    fin_cases i <;> fin_cases j <;> exact ⟨by decide +kernel, by decide +kernel⟩

end IntvalPy
