import Verif.PropsGauss
import Verif.PropsRecFun
import Mathlib.Algebra.BigOperators.Field
import Mathlib.Algebra.Order.Archimedean.Basic
import Mathlib.LinearAlgebra.Matrix.NonsingularInverse

/-!
# Rohn, HBR and Neumaier (C42, C43, C44, C45)
-/

set_option autoImplicit false
set_option linter.unusedSectionVars false

namespace IntvalPy
open Spec

variable {K : Type*} [Field K] [LinearOrder K] [IsStrictOrderedRing K]

/-! ## C42 -/

/-- The fixed-point argument: `e ≤ G e + g` and `G d + g < d` give `e ≤ d`. -/
theorem le_of_contract {m : ℕ} (G : Fin m → Fin m → K) (g d e : Fin m → K) (hG : ∀ i j, 0 ≤ G i j)
    (hg : ∀ i, 0 ≤ g i) (hd0 : ∀ i, 0 ≤ d i) (hd : ∀ i, ∑ j, G i j * d j + g i < d i)
    (he : ∀ i, e i ≤ ∑ j, G i j * e j + g i) (i : Fin m) : e i ≤ d i := by
  have hdpos : ∀ i, 0 < d i := fun i =>
    lt_of_le_of_lt (add_nonneg (Finset.sum_nonneg fun j _ => mul_nonneg (hG i j) (hd0 j)) (hg i)) (hd i)
  obtain ⟨k, -, hk⟩ := Finset.exists_max_image Finset.univ (fun j => e j / d j) ⟨i, Finset.mem_univ i⟩
  set t := e k / d k with ht
  have hle : ∀ j, e j ≤ t * d j := fun j => by
    have := hk j (Finset.mem_univ j)
    rwa [div_le_iff₀ (hdpos j)] at this
  by_contra hc
  rw [not_le] at hc
  have ht1 : 1 < t := by
    have h1 := (hle i)
    by_contra hn
    rw [not_lt] at hn
    have := mul_le_mul_of_nonneg_right hn (hd0 i)
    linarith
  have h1 : e k ≤ t * (∑ j, G k j * d j + g k) := by
    calc e k ≤ ∑ j, G k j * e j + g k := he k
      _ ≤ ∑ j, G k j * (t * d j) + t * g k := by
          refine add_le_add (Finset.sum_le_sum fun j _ => mul_le_mul_of_nonneg_left (hle j) (hG k j)) ?_
          nlinarith [hg k]
      _ = t * (∑ j, G k j * d j + g k) := by
          rw [mul_add, Finset.mul_sum]
          congr 1
          exact Finset.sum_congr rfl fun j _ => by ring
  have h2 : t * (∑ j, G k j * d j + g k) < t * d k := mul_lt_mul_of_pos_left (hd k) (by linarith)
  have h3 : t * d k = e k := by rw [ht]; field_simp [(hdpos k).ne']
  linarith

/-- What the loop leaves behind: either no pass changed the state, or the last pass computed
`result = G d + g + tol` from some nonnegative `d` with `error` the largest change. -/
theorem rohnLoop_spec {m : ℕ} (G : Fin m → Fin m → K) (g : Fin m → K) (tol : K) (hG : ∀ i j, 0 ≤ G i j)
    (hg : ∀ i, 0 ≤ g i) (ht : 0 ≤ tol) :
    ∀ (fuel : ℕ) (d0 : Fin m → K) (e0 : Option K) (r : Fin m → K) (e : Option K), (∀ i, 0 ≤ d0 i) →
      (∀ err, e0 = some err → ∃ d : Fin m → K, (∀ i, 0 ≤ d i) ∧ (∀ i, d0 i = ∑ j, G i j * d j + g i + tol) ∧
        ∀ i, |d0 i - d i| ≤ err) →
      rohnLoop G g tol fuel d0 e0 = .ok (r, e) →
      (∀ i, 0 ≤ r i) ∧ ∀ err, e = some err → ∃ d : Fin m → K, (∀ i, 0 ≤ d i) ∧
        (∀ i, r i = ∑ j, G i j * d j + g i + tol) ∧ ∀ i, |r i - d i| ≤ err := by
  intro fuel
  induction fuel with
  | zero =>
    intro d0 e0 r e h0 h1 h
    simp only [rohnLoop, Except.ok.injEq, Prod.mk.injEq] at h
    obtain ⟨rfl, rfl⟩ := h
    exact ⟨h0, h1⟩
  | succ fuel ih =>
    intro d0 e0 r e h0 h1 h
    unfold rohnLoop at h
    by_cases hf : gsFar tol e0 = true
    · rw [if_pos hf] at h
      dsimp only at h
      split at h
      · cases h
      · rename_i err hmax
        refine ih _ _ r e (fun i => ?_) ?_ h
        · exact add_nonneg (add_nonneg (Finset.sum_nonneg fun j _ => mul_nonneg (hG i j) (h0 j)) (hg i)) ht
        · rintro err' ⟨⟩
          refine ⟨d0, h0, fun i => rfl, fun i => ?_⟩
          exact (npAmax_spec hmax).2 _ (by simp [List.mem_ofFn])
    · rw [if_neg hf] at h
      simp only [Except.ok.injEq, Prod.mk.injEq] at h
      obtain ⟨rfl, rfl⟩ := h
      exact ⟨h0, h1⟩

/-- Distance of a solution from `x0`: `|x - x0| ≤ G |x - x0| + g`, for any matrix `Q`. -/
theorem rohn_residual {n m : ℕ} (Q : Fin m → Fin n → K) (A : Fin n → Fin m → Iv K) (b : Fin n → Iv K)
    (x0 x : Fin m → K) (hx : United A b x) (i : Fin m) :
    |x i - x0 i| ≤ ∑ j, rohnG Q A i j * |x j - x0 j| + rohng Q A b x0 i := by
  obtain ⟨A', hA', b', hb', he⟩ := hx
  have rad0 : ∀ X : Iv K, ∀ t ∈ X, |t - X.mid Rnd.exact| ≤ X.rad Rnd.exact := by
    intro X t ht
    rw [Iv.mem_def] at ht
    simp only [Iv.mid, Iv.rad, Iv.wid, Rnd.exact_nr, id]
    rw [abs_le]
    constructor <;> linarith [ht.1, ht.2]
  set e : Fin m → K := fun j => x j - x0 j with hedef
  set E : Fin m → K := fun j => (if i = j then 1 else 0) - ∑ k, Q i k * (A k j).mid Rnd.exact with hE
  set hh : Fin n → K := fun k => ∑ j, (A k j).mid Rnd.exact * x0 j - (b k).mid Rnd.exact with hhh
  set p : Fin n → K := fun k => (b' k - (b k).mid Rnd.exact) - ∑ j, (A' k j - (A k j).mid Rnd.exact) * e j
    - ∑ j, (A' k j - (A k j).mid Rnd.exact) * x0 j with hp
  have hs : ∀ k, ∑ j, (A k j).mid Rnd.exact * e j = p k - hh k := by
    intro k
    have hk := he k
    simp only [apply] at hk
    simp only [hp, hhh, ← hk]
    have : ∑ j, A' k j * x j = ∑ j, (A' k j - (A k j).mid Rnd.exact) * e j
        + ∑ j, (A' k j - (A k j).mid Rnd.exact) * x0 j + ∑ j, (A k j).mid Rnd.exact * x0 j
        + ∑ j, (A k j).mid Rnd.exact * e j := by
      simp only [← Finset.sum_add_distrib]
      exact Finset.sum_congr rfl fun j _ => by simp only [hedef]; ring
    rw [this]; ring
  have split : e i = ∑ j, E j * e j + ∑ k, Q i k * p k - ∑ k, Q i k * hh k := by
    have e1 : ∑ j, E j * e j = e i - ∑ k, Q i k * ∑ j, (A k j).mid Rnd.exact * e j := by
      simp only [hE, sub_mul, Finset.sum_sub_distrib, ite_mul, one_mul, zero_mul, Finset.sum_ite_eq,
        Finset.mem_univ, if_true, Finset.sum_mul, Finset.mul_sum]
      rw [Finset.sum_comm]
      simp only [mul_assoc]
    rw [e1]
    simp only [hs, mul_sub, Finset.sum_sub_distrib]
    ring
  have hpb : ∀ k, |p k| ≤ (b k).rad Rnd.exact + ∑ j, (A k j).rad Rnd.exact * |e j|
      + ∑ j, (A k j).rad Rnd.exact * |x0 j| := by
    intro k
    have hsum : ∀ z : Fin m → K, |∑ j, (A' k j - (A k j).mid Rnd.exact) * z j| ≤
        ∑ j, (A k j).rad Rnd.exact * |z j| := fun z =>
      (Finset.abs_sum_le_sum_abs _ _).trans (Finset.sum_le_sum fun j _ => by
        rw [abs_mul]; exact mul_le_mul_of_nonneg_right (rad0 _ _ (hA' k j)) (abs_nonneg _))
    have h1 := rad0 _ _ (hb' k)
    have h2 := hsum e
    have h3 := hsum x0
    rw [abs_le] at h1 h2 h3 ⊢
    simp only [hp]
    constructor <;> linarith [h1.1, h1.2, h2.1, h2.2, h3.1, h3.2]
  have hbound : |e i| ≤ ∑ j, |E j| * |e j| + ∑ k, |Q i k| * |p k| + |∑ k, Q i k * hh k| := by
    conv_lhs => rw [split]
    have t1 : |∑ j, E j * e j| ≤ ∑ j, |E j| * |e j| :=
      (Finset.abs_sum_le_sum_abs _ _).trans (Finset.sum_le_sum fun j _ => by rw [abs_mul])
    have t2 : |∑ k, Q i k * p k| ≤ ∑ k, |Q i k| * |p k| :=
      (Finset.abs_sum_le_sum_abs _ _).trans (Finset.sum_le_sum fun j _ => by rw [abs_mul])
    exact (abs_sub _ _).trans (add_le_add ((abs_add_le _ _).trans (add_le_add t1 t2)) (le_refl _))
  refine hbound.trans ?_
  have t3 : ∑ k, |Q i k| * |p k| ≤ ∑ k, |Q i k| * ((b k).rad Rnd.exact + ∑ j, (A k j).rad Rnd.exact * |e j|
      + ∑ j, (A k j).rad Rnd.exact * |x0 j|) :=
    Finset.sum_le_sum fun k _ => mul_le_mul_of_nonneg_left (hpb k) (abs_nonneg _)
  have t4 : ∑ j, rohnG Q A i j * |e j| = ∑ j, |E j| * |e j|
      + ∑ k, |Q i k| * ∑ j, (A k j).rad Rnd.exact * |e j| := by
    simp only [rohnG, add_mul, Finset.sum_add_distrib, Finset.sum_mul, Finset.mul_sum]
    congr 1
    rw [Finset.sum_comm]
    simp only [mul_assoc]
  rw [t4]
  unfold rohng
  simp only [mul_add, Finset.sum_add_distrib] at t3 ⊢
  linarith

theorem rohnG_nonneg {n m : ℕ} (Q : Fin m → Fin n → K) (A : Fin n → Fin m → Iv K) (hA : ∀ i j, Ordinary (A i j))
    (i j : Fin m) : 0 ≤ rohnG Q A i j := by
  refine add_nonneg (abs_nonneg _) (Finset.sum_nonneg fun k _ => mul_nonneg (abs_nonneg _) ?_)
  simp only [Iv.rad, Iv.wid, Rnd.exact_nr, id]
  linarith [(hA k j).2]

theorem rohng_nonneg {n m : ℕ} (Q : Fin m → Fin n → K) (A : Fin n → Fin m → Iv K) (b : Fin n → Iv K)
    (hA : ∀ i j, Ordinary (A i j)) (hb : ∀ i, Ordinary (b i)) (x0 : Fin m → K) (i : Fin m) :
    0 ≤ rohng Q A b x0 i := by
  refine add_nonneg (abs_nonneg _) (Finset.sum_nonneg fun k _ => mul_nonneg (abs_nonneg _) ?_)
  simp only [Iv.rad, Iv.wid, Rnd.exact_nr, id]
  refine add_nonneg (Finset.sum_nonneg fun j _ => mul_nonneg ?_ (abs_nonneg _)) ?_
  · linarith [(hA k j).2]
  · linarith [(hb k).2]

/-- Multiplication by a rectangular point matrix keeps the solutions. -/
theorem leftMul_solution (R : Rnd K) {n m : ℕ} (hn : 0 < n) (P : Fin m → Fin n → K) (A : Fin n → Fin m → Iv K)
    (b : Fin n → Iv K) (hA : ∀ i j, Ordinary (A i j)) (hb : ∀ i, Ordinary (b i)) (x : Fin m → K)
    (hx : United A b x) :
    United (fun i l => dotEntry (dotNI R (List.ofFn (P i)) (List.ofFn fun k => A k l)))
        (fun i => dotEntry (dotNI R (List.ofFn (P i)) (List.ofFn b))) x ∧
      (∀ i l, Ordinary (dotEntry (dotNI R (List.ofFn (P i)) (List.ofFn fun k => A k l)))) ∧
      ∀ i, Ordinary (dotEntry (dotNI R (List.ofFn (P i)) (List.ofFn b))) := by
  obtain ⟨A', hA', b', hb', he⟩ := hx
  have hM : ∀ i l, Ordinary (dotEntry (dotNI R (List.ofFn (P i)) (List.ofFn fun k => A k l))) ∧
      ∑ j, P i j * A' j l ∈ dotEntry (dotNI R (List.ofFn (P i)) (List.ofFn fun k => A k l)) := by
    intro i l
    obtain ⟨Z, h1, h2, h3⟩ := (C26_matmul_point_encloses R (fun j => A j l) (P i) hn (fun j => hA j l)
      (fun j => A' j l) fun j => hA' j l).2
    simp only [h1, dotEntry, Option.getD_some]
    exact ⟨h2, h3⟩
  have hV : ∀ i, Ordinary (dotEntry (dotNI R (List.ofFn (P i)) (List.ofFn b))) ∧
      ∑ j, P i j * b' j ∈ dotEntry (dotNI R (List.ofFn (P i)) (List.ofFn b)) := by
    intro i
    obtain ⟨Z, h1, h2, h3⟩ := (C26_matmul_point_encloses R b (P i) hn hb b' hb').2
    simp only [h1, dotEntry, Option.getD_some]
    exact ⟨h2, h3⟩
  refine ⟨⟨_, fun i l => (hM i l).2, _, fun i => (hV i).2, fun i => ?_⟩, fun i l => (hM i l).1, fun i => (hV i).1⟩
  simp only [apply, Finset.sum_mul]
  rw [Finset.sum_comm]
  refine Finset.sum_congr rfl fun j _ => ?_
  rw [← he j, apply, Finset.mul_sum]
  exact Finset.sum_congr rfl fun l _ => by ring

/-- The last pass of the loop bounds everything that satisfies the residual inequality. -/
theorem rohn_final {m : ℕ} (G : Fin m → Fin m → K) (g : Fin m → K) (tol : K) (hG : ∀ i j, 0 ≤ G i j)
    (hg : ∀ i, 0 ≤ g i) (ht : 0 ≤ tol) (r d e : Fin m → K) (err : K) (d0 : ∀ i, 0 ≤ d i)
    (d1 : ∀ i, r i = ∑ j, G i j * d j + g i + tol) (d2 : ∀ i, |r i - d i| ≤ err) (herr : err < tol)
    (he : ∀ i, e i ≤ ∑ j, G i j * e j + g i) (i : Fin m) : e i ≤ r i := by
  have hd : ∀ i, ∑ j, G i j * d j + g i < d i := fun i => by
    have := (abs_le.mp (d2 i)).2
    rw [d1 i] at this
    linarith
  have hle := le_of_contract G g d e hG hg d0 hd he
  have h1 := (he i).trans (add_le_add (Finset.sum_le_sum fun j _ =>
    mul_le_mul_of_nonneg_left (hle j) (hG i j)) (le_refl _))
  rw [d1 i]
  linarith

/-- C42: whatever the two calls of `np.linalg.inv` return, if the iteration of `Rohn(A, b)` stops by its tolerance
(the last `error` is below `tol`) then the returned box contains the united solution set. -/
theorem C42_rohn_uni {n m : ℕ} (hn : 0 < n) (inv : (Fin m → Fin m → K) → Except Err (Fin m → Fin m → K))
    (A : Fin n → Fin m → Iv K) (b : Fin n → Iv K) (tol : K) (ht : 0 ≤ tol) (maxiter : ℤ)
    (hA : ∀ i j, Ordinary (A i j)) (hb : ∀ i, Ordinary (b i)) (X : Fin m → Iv K) (err : K)
    (h : rohnUni inv A b tol maxiter = .ok (X, some err)) (herr : err < tol) (x : Fin m → K)
    (hx : United A b x) : InVec x X := by
  unfold rohnUni at h
  split at h
  · cases h
  · rename_i P hP
    dsimp only at h
    split at h
    · cases h
    · rename_i Q hQ
      obtain ⟨s1, s2, s3⟩ := leftMul_solution Rnd.exact hn P A b hA hb x hx
      split at h
      · cases h
      · rename_i result error hl
        simp only [Except.ok.injEq, Prod.mk.injEq] at h
        obtain ⟨hX, rfl⟩ := h
        have G0 := rohnG_nonneg Q _ s2
        have g0 := rohng_nonneg Q _ _ s2 s3 (fun i => ∑ k, Q i k * Iv.mid Rnd.exact
          (dotEntry (dotNI Rnd.exact (List.ofFn (P k)) (List.ofFn b))))
        obtain ⟨r0, r1⟩ := rohnLoop_spec _ _ tol G0 g0 ht _ _ _ _ _ (fun _ => le_refl _) (by simp) hl
        obtain ⟨d, d0, d1, d2⟩ := r1 err rfl
        have hres := rohn_residual Q _ _ (fun i => ∑ k, Q i k * Iv.mid Rnd.exact
          (dotEntry (dotNI Rnd.exact (List.ofFn (P k)) (List.ofFn b)))) x s1
        have hfin := rohn_final _ _ tol G0 g0 ht result d _ err d0 d1 d2 herr hres
        intro i
        have h2 := abs_le.mp (hfin i)
        rw [← hX]
        dsimp only
        rw [if_neg (by linarith [r0 i])]
        exact ⟨by linarith [h2.1], by linarith [h2.2]⟩

/-- Exact inverse of a matrix of size one. -/
def inv1 : (Fin 1 → Fin 1 → ℚ) → Except Err (Fin 1 → Fin 1 → ℚ) := fun M =>
  if M 0 0 = 0 then .error .linAlgError else .ok fun _ _ => 1 / M 0 0

/-- The returned endpoints and the last `error` for `[1/10, 19/10] x = 1` with the given limits. -/
def rohnRun (tol : ℚ) (maxiter : ℤ) : Option (ℚ × ℚ × Option ℚ) :=
  match rohnUni inv1 (fun (_ _ : Fin 1) => ⟨.classical, 1/10, 19/10⟩) (fun _ => ⟨.classical, 1, 1⟩) tol maxiter with
  | .ok (X, e) => some ((X 0).a, (X 0).b, e)
  | .error _ => none

/-- A run that stops by the tolerance: the hypotheses of `C42_rohn_uni` hold. -/
example : (rohnRun 1 200).map (fun t => decide (t.1 ≤ 10 ∧ 10 ≤ t.2.1)) = some true ∧
    (rohnRun 1 200).map (fun t => t.2.2.map fun e => decide (e < 1)) = some (some true) := by decide +kernel

/-- C42: whatever the tolerance (also a negative one, for which `result` may be negative) and the limit, each
component returned is a classical interval with its ends in order. -/
theorem C42_ordinary {n m : ℕ} (inv : (Fin m → Fin m → K) → Except Err (Fin m → Fin m → K))
    (A : Fin n → Fin m → Iv K) (b : Fin n → Iv K) (tol : K) (maxiter : ℤ) (X : Fin m → Iv K) (e : Option K)
    (h : rohnUni inv A b tol maxiter = .ok (X, e)) (i : Fin m) : Ordinary (X i) := by
  unfold rohnUni at h
  split at h
  · cases h
  · dsimp only at h
    split at h
    · cases h
    · split at h
      · cases h
      · cases h
        dsimp only
        split_ifs with h1
        · exact ⟨rfl, h1.le⟩
        · exact ⟨rfl, not_lt.1 h1⟩

/-- A run with a negative `result`. -/
example : rohnRun (-2) 0 = some (-1/10, 21/10, some (11/10)) := by decide +kernel

/-- C42: the condition on the stop is needed, and the caller cannot check it: with `maxiter = 0` the result for
`[1/10, 19/10] x = 1` is returned without the solution `10`. -/
theorem C42_maxiter_stop : ∃ (A : Fin 1 → Fin 1 → Iv ℚ) (b X : Fin 1 → Iv ℚ) (err : ℚ),
    (∀ i j, Ordinary (A i j)) ∧ (∀ i, Ordinary (b i)) ∧
    rohnUni inv1 A b (1/1000) 0 = .ok (X, some err) ∧ ¬ err < 1/1000 ∧ ∃ x, United A b x ∧ ¬ InVec x X := by
  have h0 : rohnRun (1/1000) 0 = some (99/1000, 1901/1000, some (901/1000)) := by decide +kernel
  unfold rohnRun at h0
  split at h0
  · rename_i X e hX
    simp only [Option.some.injEq, Prod.mk.injEq] at h0
    obtain ⟨h1, h2, rfl⟩ := h0
    refine ⟨_, _, X, _, ?_, ?_, hX, by norm_num, fun _ => 10, ?_, ?_⟩
    · intro i j; norm_num [Ordinary]
    · intro i; norm_num [Ordinary]
    · refine ⟨fun _ _ => 1/10, ?_, fun _ => 1, ?_, ?_⟩
      · intro i j; norm_num [Iv.mem_def]
      · intro i; norm_num [Iv.mem_def]
      · intro i; norm_num [apply]
    · intro h
      have := h 0
      rw [Iv.mem_def, h1, h2] at this
      norm_num at this
  · cases h0

/-- One more pass multiplies the change by at most the largest row sum of `G`. -/
theorem rohnLoop_stops {m : ℕ} (hm : 0 < m) (G : Fin m → Fin m → K) (g : Fin m → K) (tol q c : K)
    (hG : ∀ i j, 0 ≤ G i j) (hq : ∀ i, ∑ j, G i j ≤ q) (q0 : 0 ≤ q) (c0 : 0 ≤ c) :
    ∀ (fuel k : ℕ) (d : Fin m → K) (e0 : Option K),
      (∀ i, |(∑ j, G i j * d j + g i + tol) - d i| ≤ q ^ k * c) → q ^ (k + fuel) * c < tol →
      ∃ r err, rohnLoop G g tol (fuel + 1) d e0 = .ok (r, some err) ∧ err < tol := by
  have pass : ∀ d : Fin m → K, ∃ err, npAmax (List.ofFn fun i => |(∑ j, G i j * d j + g i + tol) - d i|) = .ok err ∧
      ∃ i, |(∑ j, G i j * d j + g i + tol) - d i| = err := by
    intro d
    obtain ⟨err, he⟩ := npAmax_ok (l := List.ofFn fun i => |(∑ j, G i j * d j + g i + tol) - d i|)
      (by intro h; rw [List.ofFn_eq_nil_iff] at h; omega)
    refine ⟨err, he, ?_⟩
    have := (npAmax_spec he).1
    rwa [List.mem_ofFn] at this
  intro fuel
  induction fuel with
  | zero =>
    intro k d e0 hd hk
    unfold rohnLoop
    split_ifs with hf
    · obtain ⟨err, h1, i, h2⟩ := pass d
      dsimp only
      rw [h1]
      exact ⟨_, err, rfl, by rw [← h2]; exact (hd i).trans_lt (by simpa using hk)⟩
    · cases e0 with
      | none => exact absurd rfl hf
      | some err => exact ⟨_, err, rfl, by simpa [gsFar] using hf⟩
  | succ fuel ih =>
    intro k d e0 hd hk
    unfold rohnLoop
    split_ifs with hf
    · obtain ⟨err, h1, i, h2⟩ := pass d
      dsimp only
      rw [h1]
      refine ih (k + 1) _ _ (fun i => ?_) (by rwa [show k + 1 + fuel = k + (fuel + 1) by omega])
      have e : (∑ j, G i j * (∑ l, G j l * d l + g j + tol) + g i + tol) - (∑ j, G i j * d j + g i + tol)
          = ∑ j, G i j * ((∑ l, G j l * d l + g j + tol) - d j) := by
        simp only [mul_sub, Finset.sum_sub_distrib]; ring
      rw [e]
      calc |∑ j, G i j * ((∑ l, G j l * d l + g j + tol) - d j)|
          ≤ ∑ j, G i j * (q ^ k * c) := by
            refine (Finset.abs_sum_le_sum_abs _ _).trans (Finset.sum_le_sum fun j _ => ?_)
            rw [abs_mul, abs_of_nonneg (hG i j)]
            exact mul_le_mul_of_nonneg_left (hd j) (hG i j)
        _ = (∑ j, G i j) * (q ^ k * c) := by rw [Finset.sum_mul]
        _ ≤ q * (q ^ k * c) := mul_le_mul_of_nonneg_right (hq i) (mul_nonneg (pow_nonneg q0 _) c0)
        _ = q ^ (k + 1) * c := by ring
    · cases e0 with
      | none => exact absurd rfl hf
      | some err => exact ⟨_, err, rfl, by simpa [gsFar] using hf⟩

/-- C42 (the stop is reached): if every row sum of `G` is at most some `q < 1`, the loop stops by the tolerance for
every sufficiently large `maxiter`. -/
theorem C42_loop_stops [Archimedean K] {m : ℕ} (hm : 0 < m) (G : Fin m → Fin m → K) (g : Fin m → K) (tol q : K) (ht : 0 < tol)
    (hG : ∀ i j, 0 ≤ G i j) (hg : ∀ i, 0 ≤ g i) (hq : ∀ i, ∑ j, G i j ≤ q) (hq1 : q < 1) :
    ∃ N : ℕ, ∀ fuel, N ≤ fuel → ∃ r err, rohnLoop G g tol fuel (fun _ => 0) none = .ok (r, some err) ∧ err < tol := by
  have q0 : 0 ≤ q := (Finset.sum_nonneg fun j _ => hG ⟨0, hm⟩ j).trans (hq ⟨0, hm⟩)
  set c : K := ∑ i, (g i + tol) with hc
  have gc : ∀ i, g i + tol ≤ c := fun i =>
    Finset.single_le_sum (f := fun i => g i + tol) (fun j _ => add_nonneg (hg j) ht.le) (Finset.mem_univ i)
  have c0 : 0 < c := lt_of_lt_of_le (add_pos_of_nonneg_of_pos (hg ⟨0, hm⟩) ht) (gc _)
  obtain ⟨n, hn⟩ := exists_pow_lt_of_lt_one (div_pos ht c0) hq1
  refine ⟨n + 1, fun fuel hf => ?_⟩
  obtain ⟨f, rfl⟩ : ∃ f, fuel = f + 1 := ⟨fuel - 1, by omega⟩
  refine rohnLoop_stops hm G g tol q c hG hq q0 c0.le f 0 _ none (fun i => ?_) ?_
  · simp only [mul_zero, Finset.sum_const_zero, zero_add, sub_zero, pow_zero, one_mul]
    rw [abs_of_nonneg (add_nonneg (hg i) ht.le)]
    exact gc i
  · rw [zero_add, ← lt_div_iff₀ c0]
    exact (pow_le_pow_of_le_one q0 hq1.le (by omega)).trans_lt hn

/-- A contraction with row sums at most 1/2: the loop stops by the tolerance. -/
example : ∃ N : ℕ, ∀ fuel, N ≤ fuel → ∃ r err,
    rohnLoop (fun i j : Fin 2 => if i = j then (0 : ℚ) else 1 / 2) (fun _ => 1) (1 / 1000) fuel (fun _ => 0) none =
      .ok (r, some err) ∧ err < 1 / 1000 :=
  C42_loop_stops (by norm_num) _ _ _ (1 / 2) (by norm_num) (fun i j => by split_ifs <;> norm_num)
    (fun _ => by norm_num) (fun i => by fin_cases i <;> simp [Fin.sum_univ_succ]) (by norm_num)

/-! ## C43 -/

/-- An exact solver of `minimize c z subject to A z ≤ b`: a returned point is feasible and optimal.
(Assumption about `cvxopt.solvers.lp`; it raises when the program is infeasible or unbounded.) -/
def LpOK {ρ γ : Type} [Fintype γ] (lp : LpSolver K ρ γ) : Prop :=
  ∀ c A b z, lp c A b = .ok z → (∀ r, ∑ j, A r j * z j ≤ b r) ∧
    ∀ z' : γ → K, (∀ r, ∑ j, A r j * z' j ≤ b r) → ∑ j, c j * z j ≤ ∑ j, c j * z' j

/-- The constraints of the linear program describe the pairs `u, v ≥ 0`. -/
theorem rohnLp_feasible {n m : ℕ} (A : Fin n → Fin m → Iv K) (b : Fin n → Iv K) (z : Fin m ⊕ Fin m → K) :
    (∀ r, ∑ j, rohnLpA A r j * z j ≤ rohnLpB (m := m) b r) ↔
      (∀ c, 0 ≤ z c) ∧
      (∀ i, ∑ j, (A i j).b * z (.inl j) - ∑ j, (A i j).a * z (.inr j) ≤ (b i).b) ∧
      ∀ i, (b i).a ≤ ∑ j, (A i j).a * z (.inl j) - ∑ j, (A i j).b * z (.inr j) := by
  simp only [Sum.forall, Fintype.sum_sum_type, rohnLpA, rohnLpB, neg_mul, Finset.sum_neg_distrib]
  constructor
  · rintro ⟨h1, h2, h3, h4⟩
    refine ⟨⟨fun j => ?_, fun j => ?_⟩, fun i => by linarith [h1 i], fun i => by linarith [h2 i]⟩
    · have := h3 j; simp at this; exact this
    · have := h4 j; simp at this; exact this
  · rintro ⟨⟨h1, h2⟩, h3, h4⟩
    refine ⟨fun i => by linarith [h3 i], fun i => by linarith [h4 i], fun j => ?_, fun j => ?_⟩
    · simpa using h1 j
    · simpa using h2 j

/-- A point is tolerable exactly when it is the difference of a feasible pair. -/
theorem tolerable_iff_lp {n m : ℕ} (A : Fin n → Fin m → Iv K) (b : Fin n → Iv K) (hA : ∀ i j, Ordinary (A i j))
    (x : Fin m → K) :
    Tolerable A b x ↔ ∃ z : Fin m ⊕ Fin m → K, (∀ j, x j = z (.inl j) - z (.inr j)) ∧
      ∀ r, ∑ j, rohnLpA A r j * z j ≤ rohnLpB (m := m) b r := by
  constructor
  · intro h
    refine ⟨fun | .inl j => max (x j) 0 | .inr j => max (-x j) 0, fun j => ?_, ?_⟩
    · rcases le_total 0 (x j) with h | h
      · simp [h]
      · simp [h]
    · rw [rohnLp_feasible]
      refine ⟨?_, fun i => ?_, fun i => ?_⟩
      · rintro (j | j)
        · exact le_max_right _ _
        · exact le_max_right _ _
      · have := (h (fun i j => if 0 ≤ x j then (A i j).b else (A i j).a) (fun i j => by
          dsimp only; split_ifs
          · exact ⟨(hA i j).2, le_refl _⟩
          · exact ⟨le_refl _, (hA i j).2⟩) i).2
        rw [apply] at this
        refine le_trans (le_of_eq ?_) this
        rw [← Finset.sum_sub_distrib]
        refine Finset.sum_congr rfl fun j _ => ?_
        dsimp only
        split_ifs with hx
        · rw [max_eq_left hx, max_eq_right (by linarith)]; ring
        · rw [max_eq_right (not_le.mp hx).le, max_eq_left (by linarith [not_le.mp hx])]; ring
      · have := (h (fun i j => if 0 ≤ x j then (A i j).a else (A i j).b) (fun i j => by
          dsimp only; split_ifs
          · exact ⟨le_refl _, (hA i j).2⟩
          · exact ⟨(hA i j).2, le_refl _⟩) i).1
        rw [apply] at this
        refine le_trans this (le_of_eq ?_)
        rw [← Finset.sum_sub_distrib]
        refine Finset.sum_congr rfl fun j _ => ?_
        dsimp only
        split_ifs with hx
        · rw [max_eq_left hx, max_eq_right (by linarith)]; ring
        · rw [max_eq_right (not_le.mp hx).le, max_eq_left (by linarith [not_le.mp hx])]; ring
  · rintro ⟨z, hz, hf⟩ A' hA' i
    rw [rohnLp_feasible] at hf
    obtain ⟨h0, h1, h2⟩ := hf
    have e : apply A' x i = ∑ j, A' i j * z (.inl j) - ∑ j, A' i j * z (.inr j) := by
      rw [apply, ← Finset.sum_sub_distrib]
      exact Finset.sum_congr rfl fun j _ => by rw [hz j]; ring
    have lo : ∀ c : Fin m → Fin m ⊕ Fin m, ∑ j, (A i j).a * z (c j) ≤ ∑ j, A' i j * z (c j) := fun c =>
      Finset.sum_le_sum fun j _ => mul_le_mul_of_nonneg_right (hA' i j).1 (h0 _)
    have hi : ∀ c : Fin m → Fin m ⊕ Fin m, ∑ j, A' i j * z (c j) ≤ ∑ j, (A i j).b * z (c j) := fun c =>
      Finset.sum_le_sum fun j _ => mul_le_mul_of_nonneg_right (hA' i j).2 (h0 _)
    rw [e]
    constructor
    · linarith [h2 i, lo Sum.inl, hi Sum.inr]
    · linarith [h1 i, lo Sum.inr, hi Sum.inl]

theorem rohnLpC_sum {m : ℕ} (nu : Fin m) (z : Fin m ⊕ Fin m → K) :
    ∑ c, rohnLpC nu c * z c = z (.inl nu) - z (.inr nu) := by
  simp only [Fintype.sum_sum_type, rohnLpC, ite_mul, one_mul, zero_mul, neg_mul, Finset.sum_ite_eq',
    Finset.mem_univ, if_true]
  ring

/-- `algo` returns the smallest and the largest value of one coordinate over the tolerable set. -/
theorem rohnAlgo_spec {n m : ℕ} (lp : LpSolver K (Fin n ⊕ Fin n ⊕ (Fin m ⊕ Fin m)) (Fin m ⊕ Fin m)) (hlp : LpOK lp)
    (A : Fin n → Fin m → Iv K) (b : Fin n → Iv K) (hA : ∀ i j, Ordinary (A i j)) (nu : Fin m) (p : K × K)
    (h : rohnAlgo lp A b nu = .ok p) :
    (∃ x, Tolerable A b x ∧ x nu = p.1) ∧ (∃ x, Tolerable A b x ∧ x nu = p.2) ∧
      ∀ x, Tolerable A b x → p.1 ≤ x nu ∧ x nu ≤ p.2 := by
  unfold rohnAlgo at h
  split at h
  · cases h
  · rename_i z hz
    split at h
    · cases h
    · rename_i z' hz'
      cases h
      obtain ⟨f1, o1⟩ := hlp _ _ _ _ hz
      obtain ⟨f2, o2⟩ := hlp _ _ _ _ hz'
      have e1 : ∑ c, z c * rohnLpC nu c = z (.inl nu) - z (.inr nu) := by
        rw [← rohnLpC_sum]; exact Finset.sum_congr rfl fun c _ => mul_comm _ _
      have e2 : -∑ c, z' c * -rohnLpC nu c = z' (.inl nu) - z' (.inr nu) := by
        rw [← rohnLpC_sum, ← Finset.sum_neg_distrib]; exact Finset.sum_congr rfl fun c _ => by ring
      simp only [neg_mul, Finset.sum_neg_distrib, neg_le_neg_iff, rohnLpC_sum] at o1 o2
      simp only [e1, e2]
      refine ⟨⟨_, (tolerable_iff_lp A b hA _).mpr ⟨z, fun _ => rfl, f1⟩, rfl⟩,
        ⟨_, (tolerable_iff_lp A b hA _).mpr ⟨z', fun _ => rfl, f2⟩, rfl⟩, fun x hx => ?_⟩
      obtain ⟨y, hy, fy⟩ := (tolerable_iff_lp A b hA x).mp hx
      rw [hy nu]
      exact ⟨o1 y fy, o2 y fy⟩

theorem rohnAll_spec {n m : ℕ} (lp : LpSolver K (Fin n ⊕ Fin n ⊕ (Fin m ⊕ Fin m)) (Fin m ⊕ Fin m))
    (A : Fin n → Fin m → Iv K) (b : Fin n → Iv K) (ks : List (Fin m)) (ps : List (K × K))
    (h : rohnAll lp A b ks = .ok ps) : List.Forall₂ (fun k p => rohnAlgo lp A b k = .ok p) ks ps := by
  induction ks generalizing ps with
  | nil => cases h; exact .nil
  | cons k ks ih =>
    unfold rohnAll at h
    split at h
    · cases h
    · rename_i p hp
      split at h
      · cases h
      · rename_i ps' hps
        cases h
        exact .cons hp (ih _ hps)

/-- C43: with an exact linear programming solver, every interval returned by `Rohn(A, b, consistency='tol')` is an
ordinary interval whose endpoints are the smallest and the largest value of its coordinate over the tolerable
solution set (both attained); there is one interval per coordinate, in order, or one for the requested
coordinate. -/
theorem C43_rohn_tol {n m : ℕ} (lp : LpSolver K (Fin n ⊕ Fin n ⊕ (Fin m ⊕ Fin m)) (Fin m ⊕ Fin m)) (hlp : LpOK lp)
    (tolval : K) (A : Fin n → Fin m → Iv K) (b : Fin n → Iv K) (hA : ∀ i j, Ordinary (A i j)) (nu : Option (Fin m))
    (X : List (Iv K)) (h : rohnTol lp tolval A b nu = .ok X) :
    List.Forall₂ (fun k Z => Ordinary Z ∧ IsRange Z (fun t => ∃ x, Tolerable A b x ∧ x k = t))
      (rohnIdx nu) X := by
  unfold rohnTol at h
  split_ifs at h
  split at h
  · cases h
  · rename_i ps hps
    cases h
    rw [List.forall₂_map_right_iff]
    refine (rohnAll_spec lp A b _ _ hps).imp fun k p hp => ?_
    obtain ⟨⟨x1, t1, e1⟩, ⟨x2, t2, e2⟩, h3⟩ := rohnAlgo_spec lp hlp A b hA k p hp
    have hle : p.1 ≤ p.2 := by rw [← e1]; exact (h3 x1 t1).2
    have hmk : mkIv p.1 p.2 = ⟨.classical, p.1, p.2⟩ := by rw [mkIv, if_pos hle]
    rw [hmk]
    refine ⟨⟨rfl, hle⟩, ?_, ⟨x1, t1, e1⟩, ⟨x2, t2, e2⟩⟩
    rintro t ⟨x, hx, rfl⟩
    exact h3 x hx

/-- C43 (empty tolerable set): no box is returned when the tolerable set is empty (whatever `Tol.maximize`
reported), or when the functional was found to be negative. -/
theorem C43_rohn_tol_empty {n m : ℕ} (hm : 0 < m)
    (lp : LpSolver K (Fin n ⊕ Fin n ⊕ (Fin m ⊕ Fin m)) (Fin m ⊕ Fin m)) (hlp : LpOK lp)
    (tolval : K) (A : Fin n → Fin m → Iv K) (b : Fin n → Iv K) (hA : ∀ i j, Ordinary (A i j)) (nu : Option (Fin m))
    (h : (∀ x, ¬ Tolerable A b x) ∨ tolval < 0) : ∃ e, rohnTol lp tolval A b nu = .error e := by
  cases hX : rohnTol lp tolval A b nu with
  | error e => exact ⟨e, rfl⟩
  | ok X =>
    exfalso
    rcases h with h | h
    · have h1 := C43_rohn_tol lp hlp tolval A b hA nu X hX
      have : ∃ k l, rohnIdx nu = k :: l := by
        cases nu with
        | some k => exact ⟨k, [], rfl⟩
        | none =>
          obtain ⟨m, rfl⟩ : ∃ m', m = m' + 1 := ⟨m - 1, by omega⟩
          exact ⟨0, _, List.finRange_succ⟩
      obtain ⟨k, l, e⟩ := this
      rw [e] at h1
      cases h1 with
      | cons h2 _ =>
        obtain ⟨x, hx, _⟩ := h2.2.2.1
        exact h x hx
    · rw [rohnTol, if_pos h] at hX
      cases hX

/-- The solver finds an optimal point whenever there is one. -/
def LpComplete {ρ γ : Type} [Fintype γ] (lp : LpSolver K ρ γ) : Prop :=
  ∀ c A b (z : γ → K), (∀ r, ∑ j, A r j * z j ≤ b r) →
    (∀ z' : γ → K, (∀ r, ∑ j, A r j * z' j ≤ b r) → ∑ j, c j * z j ≤ ∑ j, c j * z' j) → ∃ z₀, lp c A b = .ok z₀

/-- The conclusion of `LpOK` for one program. -/
def LpOpt {ρ γ : Type} [Fintype γ] (c : γ → K) (A : ρ → γ → K) (b : ρ → K) (z : γ → K) : Prop :=
  (∀ r, ∑ j, A r j * z j ≤ b r) ∧ ∀ z' : γ → K, (∀ r, ∑ j, A r j * z' j ≤ b r) → ∑ j, c j * z j ≤ ∑ j, c j * z' j

open Classical in
/-- A solver meeting both assumptions exists. -/
noncomputable def lpChoice (K : Type*) [Field K] [LinearOrder K] [IsStrictOrderedRing K] (ρ γ : Type) [Fintype γ] :
    LpSolver K ρ γ := fun c A b =>
  if h : ∃ z, LpOpt c A b z then .ok h.choose else .error .exception

theorem lpChoice_ok (ρ γ : Type) [Fintype γ] : LpOK (lpChoice K ρ γ) := by
  intro c A b z h
  unfold lpChoice at h
  split at h
  · rename_i h'; cases h; exact h'.choose_spec
  · cases h

theorem lpChoice_complete (ρ γ : Type) [Fintype γ] : LpComplete (lpChoice K ρ γ) := by
  intro c A b z h1 h2
  exact ⟨_, dif_pos ⟨z, h1, h2⟩⟩

/-- C43 (a box is returned): when the functional is not negative and every coordinate attains its smallest and its
largest value over the tolerable set, `Rohn` returns (no exception). -/
theorem C43_rohn_tol_returns {n m : ℕ} (lp : LpSolver K (Fin n ⊕ Fin n ⊕ (Fin m ⊕ Fin m)) (Fin m ⊕ Fin m))
    (hlp : LpComplete lp) (tolval : K) (ht : 0 ≤ tolval) (A : Fin n → Fin m → Iv K) (b : Fin n → Iv K)
    (hA : ∀ i j, Ordinary (A i j)) (nu : Option (Fin m))
    (hmin : ∀ k, ∃ x, Tolerable A b x ∧ ∀ y, Tolerable A b y → x k ≤ y k)
    (hmax : ∀ k, ∃ x, Tolerable A b x ∧ ∀ y, Tolerable A b y → y k ≤ x k) :
    ∃ X, rohnTol lp tolval A b nu = .ok X := by
  have h1 : ∀ k, ∃ p, rohnAlgo lp A b k = .ok p := by
    intro k
    obtain ⟨x, hx, hm⟩ := hmin k
    obtain ⟨z, hz, fz⟩ := (tolerable_iff_lp A b hA x).mp hx
    obtain ⟨x', hx', hm'⟩ := hmax k
    obtain ⟨z', hz', fz'⟩ := (tolerable_iff_lp A b hA x').mp hx'
    obtain ⟨u, hu⟩ := hlp (rohnLpC k) (rohnLpA A) (rohnLpB b) z fz (fun w fw => by
      have := hm _ ((tolerable_iff_lp A b hA _).mpr ⟨w, fun _ => rfl, fw⟩)
      rw [hz k] at this
      simp only [rohnLpC_sum]
      exact this)
    obtain ⟨v, hv⟩ := hlp (fun c => -rohnLpC k c) (rohnLpA A) (rohnLpB b) z' fz' (fun w fw => by
      have := hm' _ ((tolerable_iff_lp A b hA _).mpr ⟨w, fun _ => rfl, fw⟩)
      rw [hz' k] at this
      simp only [neg_mul, Finset.sum_neg_distrib, neg_le_neg_iff, rohnLpC_sum]
      exact this)
    refine ⟨(∑ c, u c * rohnLpC k c, -∑ c, v c * -rohnLpC k c), ?_⟩
    unfold rohnAlgo
    simp only [hu, hv]
  have h2 : ∀ ks, ∃ ps, rohnAll lp A b ks = .ok ps := by
    intro ks
    induction ks with
    | nil => exact ⟨_, rfl⟩
    | cons k ks ih =>
      obtain ⟨p, hp⟩ := h1 k
      obtain ⟨ps, hps⟩ := ih
      exact ⟨p :: ps, by simp only [rohnAll, hp, hps]⟩
  obtain ⟨ps, hps⟩ := h2 (rohnIdx nu)
  exact ⟨ps.map fun p => mkIv p.1 p.2, by simp only [rohnTol, if_neg (not_lt.mpr ht), hps]⟩

/-- The one-equation system `[1, 2] x = [0, 4]`: the tolerable set is `[0, 2]`, and `Rohn` returns exactly it. -/
example : rohnTol (lpChoice ℚ _ _) 0 (fun _ _ : Fin 1 => ⟨.classical, 1, 2⟩) (fun _ => ⟨.classical, 0, 4⟩) none
    = .ok [⟨.classical, 0, 2⟩] := by
  have hA : ∀ i j : Fin 1, Ordinary ((fun _ _ : Fin 1 => (⟨.classical, 1, 2⟩ : Iv ℚ)) i j) :=
    fun _ _ => ⟨rfl, by norm_num⟩
  have hT : ∀ x : Fin 1 → ℚ, Tolerable (fun _ _ : Fin 1 => ⟨.classical, 1, 2⟩) (fun _ => ⟨.classical, 0, 4⟩) x ↔
      0 ≤ x 0 ∧ x 0 ≤ 2 := by
    intro x
    constructor
    · intro h
      have h1 := h (fun _ _ => 1) (fun _ _ => by rw [Iv.mem_def]; norm_num) 0
      have h2 := h (fun _ _ => 2) (fun _ _ => by rw [Iv.mem_def]; norm_num) 0
      simp only [apply, Finset.univ_unique, Fin.default_eq_zero, Finset.sum_singleton, Iv.mem_def] at h1 h2
      constructor <;> linarith [h1.1, h2.2]
    · rintro ⟨h1, h2⟩ A' hA' i
      have h3 := hA' i 0
      simp only [Iv.mem_def] at h3
      simp only [apply, Finset.univ_unique, Fin.default_eq_zero, Finset.sum_singleton, Iv.mem_def]
      constructor
      · exact mul_nonneg (by linarith [h3.1]) h1
      · nlinarith [h3.1, h3.2]
  obtain ⟨X, hX⟩ := C43_rohn_tol_returns (lpChoice ℚ _ _) (lpChoice_complete _ _) 0 le_rfl _ _ hA none
    (fun k => ⟨fun _ => 0, (hT _).mpr ⟨le_rfl, by norm_num⟩, fun y hy => by
      obtain rfl := Subsingleton.elim k 0; exact ((hT y).mp hy).1⟩)
    (fun k => ⟨fun _ => 2, (hT _).mpr ⟨by norm_num, le_rfl⟩, fun y hy => by
      obtain rfl := Subsingleton.elim k 0; exact ((hT y).mp hy).2⟩)
  rw [hX]
  have h1 := C43_rohn_tol _ (lpChoice_ok _ _) 0 _ _ hA none X hX
  have e : rohnIdx (none : Option (Fin 1)) = [0] := rfl
  rw [e] at h1
  cases h1 with
  | @cons _ Z _ l h2 h3 =>
    cases h3
    obtain ⟨⟨t1, t2⟩, t3, ⟨x, hx, ex⟩, ⟨y, hy, ey⟩⟩ := h2
    have a1 := t3 0 ⟨fun _ => 0, (hT _).mpr ⟨le_rfl, by norm_num⟩, rfl⟩
    have a2 := t3 2 ⟨fun _ => 2, (hT _).mpr ⟨by norm_num, le_rfl⟩, rfl⟩
    have a3 := (hT _).mp hx
    have a4 := (hT _).mp hy
    rw [Iv.mem_def] at a1 a2
    obtain ⟨c, za, zb⟩ := Z
    simp only at t1 ex ey a1 a2
    have : za = 0 := by linarith [a1.1]
    have : zb = 2 := by linarith [a2.2]
    subst_vars
    simp_all

