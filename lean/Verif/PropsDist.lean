import Verif.ModelDist
import Verif.PropsObjects
import Mathlib.Analysis.MeanInequalities

/-!
# C89: `dist` with a finite order
-/

set_option autoImplicit false
set_option linter.unusedSectionVars false

namespace IntvalPy

open Spec

/-- Spec: the four axioms of a metric for one triple of interval vectors, where equality means equal endpoints. -/
def MetricAt {n : ℕ} (d : (Fin n → Iv ℝ) → (Fin n → Iv ℝ) → ℝ) (x y z : Fin n → Iv ℝ) : Prop :=
  0 ≤ d x y ∧ d x y = d y x ∧ (d x y = 0 ↔ ∀ i, SameEnds (x i) (y i)) ∧ d x z ≤ d x y + d y z

/-- C89 (full statement, false of the code): for every order for which the calls succeed `dist` is a metric. -/
def C89_statement : Prop :=
  ∀ (ints : Bool) (order : DistOrder) (n : ℕ) (d : (Fin n → Iv ℝ) → (Fin n → Iv ℝ) → ℝ),
    (∀ x y, distOrd ints order x y = .ok (d x y)) → ∀ x y z, MetricAt d x y z

/-- C89 is false of the code: with a negative order different vectors that share one component have the
distance 0. -/
theorem C89_false : ¬ C89_statement := by
  intro h
  have hd : ∀ x y : Fin 2 → Iv ℝ, ∃ v, distOrd false (.int (-1)) x y = .ok v := by
    intro x y
    rw [distOrd, if_neg (by norm_num), if_neg (by simp), if_neg (by norm_num)]
    split_ifs <;> exact ⟨_, rfl⟩
  choose d hd using hd
  have h1 := (h false (.int (-1)) 2 d hd (fun _ => ⟨.classical, 0, 0⟩) (fun i => ⟨.classical, i, i⟩) (fun _ => ⟨.classical, 0, 0⟩)).2.2.1
  have h2 : d (fun _ => ⟨.classical, 0, 0⟩) (fun i => ⟨.classical, i, i⟩) = 0 := by
    have := hd (fun _ => ⟨.classical, 0, 0⟩) (fun i => ⟨.classical, i, i⟩)
    rw [distOrd, if_neg (by norm_num), if_neg (by simp), if_neg (by norm_num), if_pos ⟨by norm_num, 0, by simp [cheb]⟩] at this
    exact (Except.ok.inj this).symm
  have h3 := (h1.mp h2 1).1
  norm_num at h3

/-- C89, partial: for positive orders `dist` succeeds on nonempty vectors and is a metric; it is at least the
Chebyshev distance, and it is the sum of the componentwise distances for the order 1. -/
theorem C89_dist_partial (ints : Bool) (p n : ℕ) (hp : 0 < p) (hn : 0 < n) :
    ∃ d : (Fin n → Iv ℝ) → (Fin n → Iv ℝ) → ℝ, (∀ x y, distOrd ints (.int p) x y = .ok (d x y)) ∧
      (∀ x y z, MetricAt d x y z) ∧
      (∀ x y v, distOrd ints .infinity x y = .ok v → v ≤ d x y ∧ d x y ^ p ≤ n * v ^ p) ∧
      (∀ x y, d x y ^ p = ∑ i, dist (x i) (y i) ^ p) := by
  have hp' : (0 : ℝ) < p := Nat.cast_pos.mpr hp
  have hnn : ∀ X Y : Iv ℝ, 0 ≤ cheb X Y := fun X Y => (C24_dist_metric X Y X).1
  have hsum : ∀ x y : Fin n → Iv ℝ, 0 ≤ ∑ i, cheb (x i) (y i) ^ p := fun x y =>
    Finset.sum_nonneg fun i _ => pow_nonneg (hnn _ _) _
  let d : (Fin n → Iv ℝ) → (Fin n → Iv ℝ) → ℝ := fun x y => (∑ i, cheb (x i) (y i) ^ p) ^ (1 / (p : ℝ))
  have hpow : ∀ x y, d x y ^ p = ∑ i, dist (x i) (y i) ^ p := by
    intro x y
    change ((∑ i, cheb (x i) (y i) ^ p) ^ (1 / (p : ℝ))) ^ p = _
    rw [← Real.rpow_natCast, ← Real.rpow_mul (hsum x y), one_div, inv_mul_cancel₀ hp'.ne', Real.rpow_one]
    rfl
  have hd0 : ∀ x y, 0 ≤ d x y := fun x y => Real.rpow_nonneg (hsum x y) _
  have hle : ∀ x y i, cheb (x i) (y i) ≤ d x y := by
    intro x y i
    refine le_of_pow_le_pow_left₀ hp.ne' (hd0 x y) ?_
    rw [hpow]
    exact Finset.single_le_sum (f := fun i => dist (x i) (y i) ^ p) (fun j _ => pow_nonneg (hnn _ _) _) (Finset.mem_univ i)
  refine ⟨d, ?_, ?_, ?_, hpow⟩
  · intro x y
    rw [distOrd, if_neg hn.ne', if_neg (by simp), if_neg (by exact_mod_cast hp.ne'), if_neg (by simp)]
    simp only [zpow_natCast, Int.cast_natCast]
    rfl
  · intro x y z
    refine ⟨hd0 x y, ?_, ?_, ?_⟩
    · change (∑ i, cheb (x i) (y i) ^ p) ^ (1 / (p : ℝ)) = (∑ i, cheb (y i) (x i) ^ p) ^ (1 / (p : ℝ))
      congr 1
      refine Finset.sum_congr rfl fun i _ => ?_
      rw [show cheb (x i) (y i) = cheb (y i) (x i) from (C24_dist_metric (x i) (y i) (x i)).2.1]
    · constructor
      · intro h i
        refine (C24_dist_metric (x i) (y i) (x i)).2.2.1.mp (le_antisymm ?_ (hnn _ _))
        exact (hle x y i).trans h.le
      · intro h
        have : d x y ^ p = 0 := by
          rw [hpow]
          refine Finset.sum_eq_zero fun i _ => ?_
          rw [(C24_dist_metric (x i) (y i) (x i)).2.2.1.mpr (h i), zero_pow hp.ne']
        exact eq_zero_of_pow_eq_zero this
    · have h1 : d x z ≤ (∑ i, (cheb (x i) (y i) + cheb (y i) (z i)) ^ (p : ℝ)) ^ (1 / (p : ℝ)) := by
        refine Real.rpow_le_rpow (hsum x z) (Finset.sum_le_sum fun i _ => ?_) (by positivity)
        rw [Real.rpow_natCast]
        exact pow_le_pow_left₀ (hnn _ _) (C24_dist_metric (x i) (y i) (z i)).2.2.2 _
      refine h1.trans ((Real.Lp_add_le_of_nonneg Finset.univ (p := (p : ℝ)) (by exact_mod_cast hp)
        (fun i _ => hnn _ _) (fun i _ => hnn _ _)).trans (le_of_eq ?_))
      simp only [Real.rpow_natCast]
      rfl
  · intro x y v hv
    obtain ⟨k, rfl⟩ : ∃ k, n = k + 1 := ⟨n - 1, by omega⟩
    obtain ⟨v', _, _, _, e1, _, _, _, h1, ⟨i, h2⟩, h3, _⟩ := C24_distVec_metric k x y x
    rw [distOrd, e1] at hv
    cases hv
    constructor
    · rw [← h2]; exact hle x y i
    · rw [hpow]
      calc ∑ i, dist (x i) (y i) ^ p ≤ ∑ _i : Fin (k + 1), v ^ p :=
            Finset.sum_le_sum fun i _ => pow_le_pow_left₀ (hnn _ _) (h1 i) _
        _ = _ := by simp

/-- C89: the calls that raise: the order 0, orders that are not `int`s, and a negative order of integer views. -/
theorem C89_raises (ints : Bool) {n : ℕ} (hn : 0 < n) (x y : Fin n → Iv ℝ) :
    distOrd ints (.int 0) x y = .error .zeroDivisionError ∧ distOrd ints .other x y = .error .exception ∧
    (∀ z < 0, distOrd true (.int z) x y = .error .valueError) := by
  refine ⟨?_, rfl, ?_⟩
  · rw [distOrd, if_neg hn.ne', if_neg (by simp), if_pos rfl]
  · intro z hz
    rw [distOrd, if_neg hn.ne', if_pos ⟨hz, rfl⟩]

/-- A distance of order 2: the components are at distance 3 and 4. -/
example : distOrd false (.int 2) (fun i => if i = (0 : Fin 2) then ⟨.classical, 0, 1⟩ else ⟨.classical, 1, 5⟩)
    (fun i => if i = 0 then ⟨.classical, 3, 3⟩ else ⟨.classical, 2, 9⟩) = .ok 5 := by
  rw [distOrd, if_neg (by norm_num), if_neg (by norm_num), if_neg (by norm_num), if_neg (by norm_num)]
  have h : (∑ i : Fin 2, cheb (if i = (0 : Fin 2) then (⟨.classical, 0, 1⟩ : Iv ℝ) else ⟨.classical, 1, 5⟩)
    (if i = 0 then ⟨.classical, 3, 3⟩ else ⟨.classical, 2, 9⟩) ^ (2 : ℤ)) = 5 ^ (2 : ℝ) := by
    rw [Fin.sum_univ_two]
    norm_num [cheb]
  rw [h, ← Real.rpow_mul (by norm_num)]
  norm_num

/-- Two empty arrays: the endpoint views cannot be formed. -/
example (ints : Bool) (z : ℤ) (x y : Fin 0 → Iv ℝ) : distOrd ints (.int z) x y = .error .valueError := by
  rw [distOrd, if_pos rfl]

end IntvalPy
