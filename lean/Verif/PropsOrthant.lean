import Verif.ModelBoundary
import Verif.SpecRecFun
import Verif.ProofsKernel
import Mathlib.Tactic.Linarith
import Mathlib.Tactic.NormNum
import Mathlib.Tactic.FieldSimp
import Mathlib.Tactic.Ring
import Mathlib.Algebra.BigOperators.Fin
import Mathlib.Tactic.FinCases

/-!
# The orthant systems of IntLinIncR2 and IntLinIncR3 (C48)
-/

set_option autoImplicit false
set_option linter.unusedSectionVars false

namespace IntvalPy

open Spec

variable {K : Type*} [Field K] [LinearOrder K] [FloorRing K] [IsStrictOrderedRing K]

/-- `x` satisfies every inequality of the list. -/
def Satisfies {d : Nat} (S : List (Ineq K d)) (x : Fin d → K) : Prop := ∀ r ∈ S, r.2 ≤ ∑ k, r.1 k * x k

/-- `x` lies in the closed orthant with the given signs. -/
def InOrthant {d : Nat} (ort : Fin d → Bool) (x : Fin d → K) : Prop :=
  ∀ k, if ort k then 0 ≤ x k else x k ≤ 0

/-- The solution set named by the argument `consistency`. -/
def SolSet {n m : Nat} (A : Fin n → Fin m → Iv K) (b : Fin n → Iv K) : Consistency → (Fin m → K) → Prop
  | .uni, x => United A b x
  | .tol, x => Tolerable A b x
  | .other, _ => False

/-- C48, full statement for the system produced with the change `shift` of the right-hand side. -/
def C48_statement (shift : K → K) {n m : Nat} (A : Fin n → Fin m → Iv K) (b : Fin n → Iv K)
    (ort : Fin m → Bool) (cons : Consistency) : Prop :=
  ∀ S, orthantRows shift A b ort cons = .ok S → ∀ x, Satisfies S x ↔ InOrthant ort x ∧ SolSet A b cons x

theorem orthDual_ends {n m : Nat} (A : Fin n → Fin m → Iv K) (ort : Fin m → Bool) (i : Fin n) (k : Fin m) :
    (orthDual A ort i k).a = (if ort k then (A i k).a else (A i k).b) ∧
    (orthDual A ort i k).b = (if ort k then (A i k).b else (A i k).a) := by
  unfold orthDual Iv.dual
  split_ifs <;> exact ⟨rfl, rfl⟩

theorem orthDual_bounds {n m : Nat} (A : Fin n → Fin m → Iv K) (ort : Fin m → Bool)
    (x : Fin m → K) (hx : InOrthant ort x) (A' : Fin n → Fin m → K) (h : InMat A' A) (i : Fin n) :
    ∑ k, (orthDual A ort i k).a * x k ≤ apply A' x i ∧ apply A' x i ≤ ∑ k, (orthDual A ort i k).b * x k := by
  unfold apply
  constructor <;> refine Finset.sum_le_sum fun k _ => ?_
  · rw [(orthDual_ends A ort i k).1]
    have hk := hx k
    obtain ⟨h1, h2⟩ := Iv.mem_def.1 (h i k)
    cases ho : ort k <;> simp only [ho, if_true, if_false, Bool.false_eq_true] at hk ⊢
    · exact mul_le_mul_of_nonpos_right h2 hk
    · exact mul_le_mul_of_nonneg_right h1 hk
  · rw [(orthDual_ends A ort i k).2]
    have hk := hx k
    obtain ⟨h1, h2⟩ := Iv.mem_def.1 (h i k)
    cases ho : ort k <;> simp only [ho, if_true, if_false, Bool.false_eq_true] at hk ⊢
    · exact mul_le_mul_of_nonpos_right h1 hk
    · exact mul_le_mul_of_nonneg_right h2 hk

theorem orthDual_mem {n m : Nat} (A : Fin n → Fin m → Iv K) (hA : ∀ i k, (A i k).a ≤ (A i k).b)
    (ort : Fin m → Bool) :
    InMat (fun i k => (orthDual A ort i k).a) A ∧ InMat (fun i k => (orthDual A ort i k).b) A := by
  constructor <;> intro i k <;> rw [Iv.mem_def]
  · dsimp only
    rw [(orthDual_ends A ort i k).1]
    split_ifs
    · exact ⟨le_rfl, hA i k⟩
    · exact ⟨hA i k, le_rfl⟩
  · dsimp only
    rw [(orthDual_ends A ort i k).2]
    split_ifs
    · exact ⟨hA i k, le_rfl⟩
    · exact ⟨le_rfl, hA i k⟩

/-- Every value between the extreme row values is attained. -/
theorem row_attained {n m : Nat} (A : Fin n → Fin m → Iv K) (hA : ∀ i k, (A i k).a ≤ (A i k).b)
    (ort : Fin m → Bool) (x : Fin m → K) (v : Fin n → K)
    (h1 : ∀ i, ∑ k, (orthDual A ort i k).a * x k ≤ v i) (h2 : ∀ i, v i ≤ ∑ k, (orthDual A ort i k).b * x k) :
    ∃ A', InMat A' A ∧ ∀ i, apply A' x i = v i := by
  obtain ⟨m1, m2⟩ := orthDual_mem A hA ort
  have : ∀ i, ∃ l : K, 0 ≤ l ∧ l ≤ 1 ∧
      (1 - l) * ∑ k, (orthDual A ort i k).a * x k + l * ∑ k, (orthDual A ort i k).b * x k = v i := by
    intro i
    set L := ∑ k, (orthDual A ort i k).a * x k
    set U := ∑ k, (orthDual A ort i k).b * x k
    rcases eq_or_lt_of_le ((h1 i).trans (h2 i)) with h | h
    · refine ⟨0, le_rfl, zero_le_one, ?_⟩
      have h3 := h1 i
      have h4 := h2 i
      have : v i = L := le_antisymm (h4.trans h.ge) h3
      rw [this]; ring
    · have hp : 0 < U - L := sub_pos.2 h
      refine ⟨(v i - L) / (U - L), div_nonneg (sub_nonneg.2 (h1 i)) hp.le,
        (div_le_one hp).2 (by linarith [h2 i]), ?_⟩
      field_simp
      ring
  choose l l0 l1 hl using this
  refine ⟨fun i k => (1 - l i) * (orthDual A ort i k).a + l i * (orthDual A ort i k).b, ?_, ?_⟩
  · intro i k
    obtain ⟨p1, p2⟩ := Iv.mem_def.1 (m1 i k)
    obtain ⟨p3, p4⟩ := Iv.mem_def.1 (m2 i k)
    rw [Iv.mem_def]
    have e0 := l0 i
    have e1 := sub_nonneg.2 (l1 i)
    constructor
    · calc (A i k).a = (1 - l i) * (A i k).a + l i * (A i k).a := by ring
        _ ≤ _ := add_le_add (mul_le_mul_of_nonneg_left p1 e1) (mul_le_mul_of_nonneg_left p3 e0)
    · calc _ ≤ (1 - l i) * (A i k).b + l i * (A i k).b :=
            add_le_add (mul_le_mul_of_nonneg_left p2 e1) (mul_le_mul_of_nonneg_left p4 e0)
        _ = (A i k).b := by ring
  · intro i
    rw [← hl i]
    unfold apply
    rw [Finset.mul_sum, Finset.mul_sum, ← Finset.sum_add_distrib]
    exact Finset.sum_congr rfl fun k _ => by ring

theorem signRows {m : Nat} (ort : Fin m → Bool) (x : Fin m → K) :
    Satisfies (List.ofFn fun k : Fin m =>
      (((fun j => if j = k then (if ort k then 1 else -1) else 0), 0) : Ineq K m)) x ↔ InOrthant ort x := by
  unfold Satisfies InOrthant
  simp only [List.forall_mem_ofFn_iff]
  refine forall_congr' fun k => ?_
  simp only [ite_mul, zero_mul, Finset.sum_ite_eq', Finset.mem_univ, if_true]
  cases ort k <;> simp

theorem satisfies_append {d : Nat} (S T : List (Ineq K d)) (x : Fin d → K) :
    Satisfies (S ++ T) x ↔ Satisfies S x ∧ Satisfies T x := by
  unfold Satisfies
  simp only [List.mem_append]
  exact ⟨fun h => ⟨fun r hr => h r (Or.inl hr), fun r hr => h r (Or.inr hr)⟩,
    fun h r hr => hr.elim (h.1 r) (h.2 r)⟩

/-- What the rows of one orthant say, whatever the change of the right-hand side. -/
theorem orthantRows_satisfies (shift : K → K) {n m : Nat} (A : Fin n → Fin m → Iv K) (b : Fin n → Iv K)
    (ort : Fin m → Bool) (x : Fin m → K) :
    (∀ S, orthantRows shift A b ort .uni = .ok S → (Satisfies S x ↔
      (∀ i, ∑ k, (orthDual A ort i k).a * x k ≤ shift (b i).b) ∧
      (∀ i, -shift (-(b i).a) ≤ ∑ k, (orthDual A ort i k).b * x k) ∧ InOrthant ort x)) ∧
    (∀ S, orthantRows shift A b ort .tol = .ok S → (Satisfies S x ↔
      (∀ i, -shift (-(b i).a) ≤ ∑ k, (orthDual A ort i k).a * x k) ∧
      (∀ i, ∑ k, (orthDual A ort i k).b * x k ≤ shift (b i).b) ∧ InOrthant ort x)) := by
  constructor <;> intro S hS <;> unfold orthantRows at hS <;> injection hS with hS <;> subst hS <;>
    rw [satisfies_append, satisfies_append, signRows, and_assoc] <;>
    refine and_congr ?_ (and_congr ?_ Iff.rfl) <;> unfold Satisfies <;>
    simp only [List.forall_mem_ofFn_iff, neg_mul, neg_neg, Finset.sum_neg_distrib, neg_le_neg_iff]

/-- Solutions in the orthant satisfy its system. -/
theorem orthant_complete {n m : Nat} (A : Fin n → Fin m → Iv K) (b : Fin n → Iv K)
    (hA : ∀ i k, (A i k).a ≤ (A i k).b) (ort : Fin m → Bool) (cons : Consistency) (S : List (Ineq K m))
    (hS : orthantRows id A b ort cons = .ok S) (x : Fin m → K) (ho : InOrthant ort x)
    (h : SolSet A b cons x) : Satisfies S x := by
  cases cons with
  | other => unfold orthantRows at hS; cases hS
  | uni =>
      rw [(orthantRows_satisfies id A b ort x).1 S hS]
      simp only [id, neg_neg]
      obtain ⟨A', hA', b', hb', he⟩ := h
      refine ⟨fun i => ?_, fun i => ?_, ho⟩
      · have h := (orthDual_bounds A ort x ho A' hA' i).1
        rw [he i] at h
        exact h.trans (Iv.mem_def.1 (hb' i)).2
      · have h := (orthDual_bounds A ort x ho A' hA' i).2
        rw [he i] at h
        exact (Iv.mem_def.1 (hb' i)).1.trans h
  | tol =>
      rw [(orthantRows_satisfies id A b ort x).2 S hS]
      simp only [id, neg_neg]
      obtain ⟨m1, m2⟩ := orthDual_mem A hA ort
      exact ⟨fun i => (Iv.mem_def.1 (h _ m1 i)).1, fun i => (Iv.mem_def.1 (h _ m2 i)).2, ho⟩

/-- C48 in the plane: in each orthant the inequalities built by `IntLinIncR2` describe exactly the part of
the united (tolerable) solution set in that orthant, for any number of equations and unknowns. -/
theorem C48_plane {n m : Nat} (A : Fin n → Fin m → Iv K) (b : Fin n → Iv K)
    (hA : ∀ i k, (A i k).a ≤ (A i k).b) (hb : ∀ i, (b i).a ≤ (b i).b) (ort : Fin m → Bool)
    (cons : Consistency) : C48_statement id A b ort cons := by
  intro S hS x
  cases cons with
  | other => unfold orthantRows at hS; cases hS
  | uni =>
      rw [(orthantRows_satisfies id A b ort x).1 S hS]
      simp only [id, neg_neg]
      constructor
      · rintro ⟨h1, h2, ho⟩
        refine ⟨ho, ?_⟩
        -- clip the row range into `b`
        obtain ⟨A', hA', he⟩ := row_attained A hA ort x
          (fun i => max (∑ k, (orthDual A ort i k).a * x k) (b i).a) (fun i => le_max_left _ _)
          (fun i => max_le ((orthDual_bounds A ort x ho _ (orthDual_mem A hA ort).1 i).2.trans' le_rfl) (h2 i))
        refine ⟨A', hA', fun i => max (∑ k, (orthDual A ort i k).a * x k) (b i).a, ?_, he⟩
        intro i
        rw [Iv.mem_def]
        exact ⟨le_max_right _ _, max_le (h1 i) (hb i)⟩
      · intro h
        have := orthant_complete A b hA ort .uni S hS x h.1 h.2
        rw [(orthantRows_satisfies id A b ort x).1 S hS] at this
        simpa only [id, neg_neg] using this
  | tol =>
      rw [(orthantRows_satisfies id A b ort x).2 S hS]
      simp only [id, neg_neg]
      constructor
      · rintro ⟨h1, h2, ho⟩
        refine ⟨ho, fun A' hA' i => ?_⟩
        obtain ⟨p1, p2⟩ := orthDual_bounds A ort x ho A' hA' i
        rw [Iv.mem_def]
        exact ⟨(h1 i).trans p1, p2.trans (h2 i)⟩
      · intro h
        have := orthant_complete A b hA ort .tol S hS x h.1 h.2
        rw [(orthantRows_satisfies id A b ort x).2 S hS] at this
        simpa only [id, neg_neg] using this

/-- C48: every vector lies in one of the four orthants visited, so that together the four systems describe
the whole solution set. -/
theorem C48_plane_cover {n : Nat} (A : Fin n → Fin 2 → Iv K) (b : Fin n → Iv K)
    (hA : ∀ i k, (A i k).a ≤ (A i k).b) (hb : ∀ i, (b i).a ≤ (b i).b) (cons : Consistency)
    (hc : cons ≠ .other) (x : Fin 2 → K) :
    SolSet A b cons x ↔ ∃ ort ∈ orthants2, ∃ S, orthantRows id A b ort cons = .ok S ∧ Satisfies S x := by
  have hex : ∀ ort, ∃ S, orthantRows id A b ort cons = .ok S := fun ort => by
    cases cons with
    | uni => exact ⟨_, rfl⟩
    | tol => exact ⟨_, rfl⟩
    | other => exact absurd rfl hc
  constructor
  · intro h
    have : ∃ ort ∈ orthants2, InOrthant ort x := by
      unfold orthants2 InOrthant
      simp only [Fin.forall_fin_two]
      rcases le_total 0 (x 0) with h0 | h0 <;> rcases le_total 0 (x 1) with h1 | h1
      · exact ⟨_, List.mem_cons_self, by simp [h0, h1]⟩
      · exact ⟨![true, false], by simp, by simp [h0, h1]⟩
      · exact ⟨![false, true], by simp, by simp [h0, h1]⟩
      · exact ⟨![false, false], by simp, by simp [h0, h1]⟩
    obtain ⟨ort, ho, hin⟩ := this
    obtain ⟨S, hS⟩ := hex ort
    exact ⟨ort, ho, S, hS, (C48_plane A b hA hb ort cons S hS x).2 ⟨hin, h⟩⟩
  · rintro ⟨ort, -, S, hS, hx⟩
    exact ((C48_plane A b hA hb ort cons S hS x).1 hx).2

/-- C48 in space: false.  `IntLinIncR3` moves every right-hand side by `1e-15` (down if it is nonnegative, up
otherwise): for the equation `x = 1` the solution `x = 1` does not satisfy the system. -/
theorem C48_space_false :
    ¬ C48_statement shift3 (fun _ : Fin 1 => ![⟨.classical, 1, 1⟩, ⟨.classical, 0, 0⟩, ⟨.classical, 0, 0⟩] :
      Fin 1 → Fin 3 → Iv ℚ) (fun _ => ⟨.classical, 1, 1⟩) (fun _ => true) .uni := by
  intro h
  have h1 := (h _ rfl ![1, 0, 0]).2 ⟨?_, ?_⟩
  · rw [(orthantRows_satisfies shift3 _ _ _ _).1 _ rfl] at h1
    have := h1.1 0
    norm_num [Fin.sum_univ_succ, shift3, orthDual] at this
  · intro k; fin_cases k <;> norm_num
  · refine ⟨fun _ => ![1, 0, 0], ?_, fun _ => 1, ?_, ?_⟩
    · intro i k; rw [Iv.mem_def]; fin_cases k <;> norm_num
    · intro i; rw [Iv.mem_def]; norm_num
    · intro i; norm_num [apply, Fin.sum_univ_succ]

/-- Right-hand side widened by `e` on both sides. -/
def widen (e : K) (b : Iv K) : Iv K := ⟨b.cls, b.a - e, b.b + e⟩

theorem shift3_near (t : K) : t - 1 / 10 ^ 15 ≤ shift3 t ∧ shift3 t ≤ t + 1 / 10 ^ 15 := by
  have : (0 : K) < 1 / 10 ^ 15 := by positivity
  unfold shift3
  split_ifs <;> constructor <;> linarith

/-- C48 in space, partial: every point satisfying the system of an orthant solves the system whose
right-hand sides are widened by `1e-15`, and every solution of the system narrowed by `1e-15` satisfies it.
Missing: the exact equivalence, which the shift of lines 629-633 destroys. -/
theorem C48_space_partial {n m : Nat} (A : Fin n → Fin m → Iv K) (b : Fin n → Iv K)
    (hA : ∀ i k, (A i k).a ≤ (A i k).b) (hb : ∀ i, (b i).a ≤ (b i).b) (ort : Fin m → Bool)
    (cons : Consistency) (S : List (Ineq K m)) (hS : orthantRows shift3 A b ort cons = .ok S) (x : Fin m → K) :
    (Satisfies S x → InOrthant ort x ∧ SolSet A (fun i => widen (1 / 10 ^ 15) (b i)) cons x) ∧
    (InOrthant ort x → SolSet A (fun i => widen (-(1 / 10 ^ 15)) (b i)) cons x → Satisfies S x) := by
  have he : (0 : K) < 1 / 10 ^ 15 := by positivity
  have hw : ∀ i, (widen (1 / 10 ^ 15) (b i)).a ≤ (widen (1 / 10 ^ 15) (b i)).b := fun i => by
    have := hb i
    simp only [widen]
    linarith
  cases cons with
  | other => unfold orthantRows at hS; cases hS
  | uni =>
      rw [(orthantRows_satisfies shift3 A b ort x).1 S hS]
      constructor
      · rintro ⟨h1, h2, ho⟩
        refine (C48_plane A _ hA hw ort .uni _ rfl x).1 ?_
        rw [(orthantRows_satisfies id A _ ort x).1 _ rfl]
        refine ⟨fun i => (h1 i).trans (shift3_near _).2, fun i => ?_, ho⟩
        have := (shift3_near (-(b i).a)).2
        have h := h2 i
        simp only [widen, id]
        linarith
      · intro ho h
        have h := orthant_complete A _ hA ort .uni _ rfl x ho h
        rw [(orthantRows_satisfies id A _ ort x).1 _ rfl] at h
        obtain ⟨h1, h2, -⟩ := h
        refine ⟨fun i => ?_, fun i => ?_, ho⟩
        · have h := h1 i
          have := (shift3_near (b i).b).1
          simp only [widen, id] at h
          linarith
        · have h := h2 i
          have := (shift3_near (-(b i).a)).1
          simp only [widen, id] at h
          linarith
  | tol =>
      rw [(orthantRows_satisfies shift3 A b ort x).2 S hS]
      constructor
      · rintro ⟨h1, h2, ho⟩
        refine (C48_plane A _ hA hw ort .tol _ rfl x).1 ?_
        rw [(orthantRows_satisfies id A _ ort x).2 _ rfl]
        refine ⟨fun i => ?_, fun i => (h2 i).trans (shift3_near _).2, ho⟩
        have := (shift3_near (-(b i).a)).2
        have h := h1 i
        simp only [widen, id]
        linarith
      · intro ho h
        have h := orthant_complete A _ hA ort .tol _ rfl x ho h
        rw [(orthantRows_satisfies id A _ ort x).2 _ rfl] at h
        obtain ⟨h1, h2, -⟩ := h
        refine ⟨fun i => ?_, fun i => ?_, ho⟩
        · have h := h1 i
          have := (shift3_near (-(b i).a)).1
          simp only [widen, id] at h
          linarith
        · have h := h2 i
          have := (shift3_near (b i).b).1
          simp only [widen, id] at h
          linarith

/-- C48: an unknown value of `consistency` is an exception. -/
theorem C48_consistency (shift : K → K) {n m : Nat} (A : Fin n → Fin m → Iv K) (b : Fin n → Iv K)
    (ort : Fin m → Bool) (cons : Consistency) :
    orthantRows shift A b ort cons = .error .exception ↔ cons = .other := by
  cases cons <;> simp [orthantRows]

/-- A point of the united but not of the tolerable solution set, and one of both, in the second orthant. -/
example : (∃ S, orthantRows id (fun _ : Fin 1 => ![⟨.classical, 1, 2⟩, ⟨.classical, 1, 1⟩] : Fin 1 → Fin 2 → Iv ℚ)
      (fun _ => ⟨.classical, 0, 1⟩) ![false, true] .uni = .ok S ∧ Satisfies S ![-1, 3/2]) ∧
    (∃ S, orthantRows id (fun _ : Fin 1 => ![⟨.classical, 1, 2⟩, ⟨.classical, 1, 1⟩] : Fin 1 → Fin 2 → Iv ℚ)
      (fun _ => ⟨.classical, 0, 1⟩) ![false, true] .tol = .ok S ∧ Satisfies S ![-1, 2] ∧
      ¬ Satisfies S ![-1, 3/2]) := by
  refine ⟨⟨_, rfl, ?_⟩, ⟨_, rfl, ?_, ?_⟩⟩ <;> unfold Satisfies <;> decide +kernel

end IntvalPy
