import Mathlib.Algebra.Order.Field.Basic
import Mathlib.Algebra.BigOperators.Fin
import Mathlib.Algebra.BigOperators.Field
import Mathlib.Data.Finset.Max
import Mathlib.Data.Fintype.BigOperators
import Mathlib.Algebra.Order.BigOperators.Group.Finset
import Mathlib.Logic.Equiv.Fin.Basic
import Mathlib.Tactic.Linarith
import Mathlib.Tactic.Ring
import Mathlib.Tactic.FieldSimp

/-!
# Linear programs over an ordered field attain their minimum

Fourier-Motzkin elimination.
-/

set_option autoImplicit false
set_option linter.unusedSectionVars false

namespace IntvalPy.Lp

variable {K : Type*} [Field K] [LinearOrder K] [IsStrictOrderedRing K]

/-- `z` satisfies all inequalities `a z ≤ b`. -/
def Sat {m : ℕ} (S : List ((Fin m → K) × K)) (z : Fin m → K) : Prop := ∀ s ∈ S, ∑ j, s.1 j * z j ≤ s.2

theorem exists_between_lists (lows ups : List K) (h : ∀ l ∈ lows, ∀ u ∈ ups, l ≤ u) :
    ∃ t, (∀ l ∈ lows, l ≤ t) ∧ ∀ u ∈ ups, t ≤ u := by
  induction lows with
  | nil =>
      induction ups with
      | nil => exact ⟨0, by simp, by simp⟩
      | cons u us ih =>
          obtain ⟨t, -, ht⟩ := ih (by simp)
          exact ⟨min t u, by simp, fun v hv => by
            rcases List.mem_cons.1 hv with rfl | hv
            · exact min_le_right _ _
            · exact (min_le_left _ _).trans (ht v hv)⟩
  | cons l ls ih =>
      obtain ⟨t, h1, h2⟩ := ih fun l hl => h l (List.mem_cons_of_mem _ hl)
      refine ⟨max t l, fun l' hl => ?_, fun u hu => max_le (h2 u hu) (h l List.mem_cons_self u hu)⟩
      rcases List.mem_cons.1 hl with rfl | hl
      · exact le_max_right _ _
      · exact (h1 l' hl).trans (le_max_left _ _)

/-- Elimination of the first unknown. -/
theorem eliminate {m : ℕ} (S : List ((Fin (m + 1) → K) × K)) :
    ∃ T : List ((Fin m → K) × K), ∀ y, Sat T y ↔ ∃ t, Sat S (Fin.cons t y) := by
  classical
  let Z := S.filter fun s => s.1 0 = 0
  let P := S.filter fun s => 0 < s.1 0
  let N := S.filter fun s => s.1 0 < 0
  let T : List ((Fin m → K) × K) :=
    (Z.map fun s => (fun j => s.1 j.succ, s.2)) ++
    P.flatMap fun p => N.map fun q =>
      (fun j => p.1 j.succ / p.1 0 - q.1 j.succ / q.1 0, p.2 / p.1 0 - q.2 / q.1 0)
  refine ⟨T, fun y => ?_⟩
  have rowsum : ∀ (s : (Fin (m + 1) → K) × K) (t : K),
      ∑ j, s.1 j * (Fin.cons t y : Fin (m + 1) → K) j = s.1 0 * t + ∑ j : Fin m, s.1 j.succ * y j := by
    intro s t
    rw [Fin.sum_univ_succ]
    simp
  have divsum : ∀ (p : (Fin (m + 1) → K) × K), (∑ j : Fin m, p.1 j.succ / p.1 0 * y j) =
      (∑ j : Fin m, p.1 j.succ * y j) / p.1 0 := by
    intro p
    rw [Finset.sum_div]
    exact Finset.sum_congr rfl fun j _ => by ring
  let f : ((Fin (m + 1) → K) × K) → K := fun s => (s.2 - ∑ j : Fin m, s.1 j.succ * y j) / s.1 0
  constructor
  · intro hT
    obtain ⟨t, h1, h2⟩ := exists_between_lists (N.map f) (P.map f) (by
      intro l hl u hu
      obtain ⟨q, hq, rfl⟩ := List.mem_map.1 hl
      obtain ⟨p, hp, rfl⟩ := List.mem_map.1 hu
      have := hT _ (List.mem_append_right _ (List.mem_flatMap.2 ⟨p, hp, List.mem_map.2 ⟨q, hq, rfl⟩⟩))
      dsimp only at this
      simp only [sub_mul, Finset.sum_sub_distrib, divsum] at this
      simp only [f, sub_div]
      linarith)
    refine ⟨t, fun s hs => ?_⟩
    rw [rowsum]
    rcases lt_trichotomy (s.1 0) 0 with h0 | h0 | h0
    · have := h1 (f s) (List.mem_map.2 ⟨s, List.mem_filter.2 ⟨hs, by simpa using h0⟩, rfl⟩)
      simp only [f] at this
      rw [div_le_iff_of_neg h0] at this
      linarith
    · have := hT _ (List.mem_append_left _ (List.mem_map.2 ⟨s, List.mem_filter.2 ⟨hs, by simpa using h0⟩, rfl⟩))
      dsimp only at this
      rw [h0]
      linarith
    · have := h2 (f s) (List.mem_map.2 ⟨s, List.mem_filter.2 ⟨hs, by simpa using h0⟩, rfl⟩)
      simp only [f] at this
      rw [le_div_iff₀ h0] at this
      linarith
  · rintro ⟨t, ht⟩ s hs
    rcases List.mem_append.1 hs with hs | hs
    · obtain ⟨s', hs', rfl⟩ := List.mem_map.1 hs
      have h0 : s'.1 0 = 0 := by simpa using (List.mem_filter.1 hs').2
      have := ht s' (List.mem_filter.1 hs').1
      rw [rowsum, h0] at this
      dsimp only
      linarith
    · obtain ⟨p, hp, hs⟩ := List.mem_flatMap.1 hs
      obtain ⟨q, hq, rfl⟩ := List.mem_map.1 hs
      have hp0 : 0 < p.1 0 := by simpa using (List.mem_filter.1 hp).2
      have hq0 : q.1 0 < 0 := by simpa using (List.mem_filter.1 hq).2
      have h1 := ht p (List.mem_filter.1 hp).1
      have h2 := ht q (List.mem_filter.1 hq).1
      rw [rowsum] at h1 h2
      have h3 : t ≤ f p := by
        simp only [f]; rw [le_div_iff₀ hp0]; linarith
      have h4 : f q ≤ t := by
        simp only [f]; rw [div_le_iff_of_neg hq0]; linarith
      simp only [f, sub_div] at h3 h4
      dsimp only
      simp only [sub_mul, Finset.sum_sub_distrib, divsum]
      linarith

/-- The values of the last unknown over the solutions are described by finitely many inequalities. -/
theorem project_last (m : ℕ) (S : List ((Fin (m + 1) → K) × K)) :
    ∃ T : List (K × K), ∀ t, (∀ p ∈ T, p.1 * t ≤ p.2) ↔ ∃ z, Sat S z ∧ z (Fin.last m) = t := by
  induction m with
  | zero =>
      refine ⟨S.map fun s => (s.1 0, s.2), fun t => ?_⟩
      constructor
      · intro h
        refine ⟨fun _ => t, fun s hs => ?_, rfl⟩
        rw [Fin.sum_univ_one]
        exact h _ (List.mem_map.2 ⟨s, hs, rfl⟩)
      · rintro ⟨z, hz, rfl⟩ p hp
        obtain ⟨s, hs, rfl⟩ := List.mem_map.1 hp
        have := hz s hs
        rw [Fin.sum_univ_one] at this
        exact this
  | succ m ih =>
      obtain ⟨T, hT⟩ := eliminate S
      obtain ⟨U, hU⟩ := ih T
      refine ⟨U, fun t => (hU t).trans ?_⟩
      constructor
      · rintro ⟨y, hy, rfl⟩
        obtain ⟨s, hs⟩ := (hT y).1 hy
        refine ⟨_, hs, ?_⟩
        rw [← Fin.succ_last, Fin.cons_succ]
      · rintro ⟨z, hz, rfl⟩
        refine ⟨Fin.tail z, (hT _).2 ⟨z 0, ?_⟩, ?_⟩
        · rw [Fin.cons_self_tail]; exact hz
        · rw [← Fin.succ_last]; rfl

/-- A set of numbers described by finitely many inequalities, nonempty and bounded below, has a smallest element. -/
theorem exists_least (T : List (K × K)) (t : K) (ht : ∀ p ∈ T, p.1 * t ≤ p.2) (B : K)
    (hB : ∀ t, (∀ p ∈ T, p.1 * t ≤ p.2) → B ≤ t) :
    ∃ t₀, (∀ p ∈ T, p.1 * t₀ ≤ p.2) ∧ ∀ t, (∀ p ∈ T, p.1 * t ≤ p.2) → t₀ ≤ t := by
  classical
  let F := (T.filter fun p => p.1 < 0).map fun p => p.2 / p.1
  by_cases hne : F = []
  · exfalso
    have : ∀ p ∈ T, 0 ≤ p.1 := by
      intro p hp
      by_contra hn
      have : p.2 / p.1 ∈ F := List.mem_map.2 ⟨p, List.mem_filter.2 ⟨hp, by simpa using hn⟩, rfl⟩
      rw [hne] at this
      cases this
    have h := hB (min t (B - 1)) fun p hp =>
      (mul_le_mul_of_nonneg_left (min_le_left _ _) (this p hp)).trans (ht p hp)
    have := min_le_right t (B - 1)
    linarith
  · have hF : F.toFinset.Nonempty := by
      obtain ⟨x, hx⟩ := List.exists_mem_of_ne_nil F hne
      exact ⟨x, List.mem_toFinset.2 hx⟩
    obtain ⟨x, hx, hmax⟩ := F.toFinset.exists_max_image id hF
    obtain ⟨p, hp, rfl⟩ := List.mem_map.1 (List.mem_toFinset.1 hx)
    have least : ∀ t, (∀ p ∈ T, p.1 * t ≤ p.2) → p.2 / p.1 ≤ t := by
      intro t ht
      have h0 : p.1 < 0 := by simpa using (List.mem_filter.1 hp).2
      rw [div_le_iff_of_neg h0]
      linarith [ht p (List.mem_filter.1 hp).1]
    refine ⟨p.2 / p.1, fun q hq => ?_, least⟩
    rcases lt_or_ge q.1 0 with h0 | h0
    · have := hmax (q.2 / q.1) (List.mem_toFinset.2 (List.mem_map.2
        ⟨q, List.mem_filter.2 ⟨hq, by simpa using h0⟩, rfl⟩))
      simp only [id] at this
      rw [div_le_iff_of_neg h0] at this
      linarith
    · exact (mul_le_mul_of_nonneg_left (least t ht) h0).trans (ht q hq)

/-- A feasible linear program with an objective bounded below has an optimal point. -/
theorem attains {ρ γ : Type} [Fintype ρ] [Fintype γ] (c : γ → K) (A : ρ → γ → K) (b : ρ → K) (z : γ → K)
    (hz : ∀ r, ∑ j, A r j * z j ≤ b r) (B : K) (hB : ∀ z' : γ → K, (∀ r, ∑ j, A r j * z' j ≤ b r) →
      B ≤ ∑ j, c j * z' j) :
    ∃ z₀ : γ → K, (∀ r, ∑ j, A r j * z₀ j ≤ b r) ∧ ∀ z' : γ → K, (∀ r, ∑ j, A r j * z' j ≤ b r) →
      ∑ j, c j * z₀ j ≤ ∑ j, c j * z' j := by
  classical
  let m := Fintype.card γ
  let e : γ ≃ Fin m := Fintype.equivFin γ
  -- unknowns: the `m` components, then the objective
  let S : List ((Fin (m + 1) → K) × K) :=
    ((Finset.univ : Finset ρ).toList.map fun r => (Fin.snoc (α := fun _ => K) (fun j => A r (e.symm j)) 0, b r)) ++
    [(Fin.snoc (α := fun _ => K) (fun j => c (e.symm j)) (-1), 0),
     (Fin.snoc (α := fun _ => K) (fun j => -c (e.symm j)) 1, 0)]
  have reidx : ∀ (a w : γ → K), ∑ j : Fin m, a (e.symm j) * w (e.symm j) = ∑ j, a j * w j := fun a w =>
    e.symm.sum_comp fun j => a j * w j
  have key : ∀ (w : Fin (m + 1) → K), Sat S w ↔
      (∀ r, ∑ j, A r j * w (e j).castSucc ≤ b r) ∧ w (Fin.last m) = ∑ j, c j * w (e j).castSucc := by
    intro w
    have hr : ∀ (a : γ → K) (x : K), ∑ j, (Fin.snoc (α := fun _ => K) (fun j => a (e.symm j)) x : Fin (m + 1) → K) j * w j
        = ∑ j, a j * w (e j).castSucc + x * w (Fin.last m) := by
      intro a x
      rw [Fin.sum_univ_castSucc]
      simp only [Fin.snoc_castSucc, Fin.snoc_last]
      congr 1
      rw [← e.sum_comp fun j => a (e.symm j) * w j.castSucc]
      simp
    constructor
    · intro h
      have h1 := h _ (List.mem_append_right _ (List.mem_cons_self))
      have h2 := h _ (List.mem_append_right _ (List.mem_cons_of_mem _ (List.mem_cons_self)))
      dsimp only at h1 h2
      rw [hr c] at h1
      rw [hr fun j => -c j] at h2
      simp only [neg_mul, Finset.sum_neg_distrib] at h2
      refine ⟨fun r => ?_, by linarith⟩
      have h3 := h _ (List.mem_append_left _ (List.mem_map.2 ⟨r, Finset.mem_toList.2 (Finset.mem_univ r), rfl⟩))
      dsimp only at h3
      rw [hr (A r)] at h3
      linarith
    · rintro ⟨h1, h2⟩ s hs
      rcases List.mem_append.1 hs with hs | hs
      · obtain ⟨r, -, rfl⟩ := List.mem_map.1 hs
        dsimp only
        rw [hr (A r)]
        linarith [h1 r]
      · rcases List.mem_cons.1 hs with rfl | hs
        · dsimp only
          rw [hr c]
          linarith
        · rw [List.mem_singleton.1 hs]
          dsimp only
          rw [hr fun j => -c j]
          simp only [neg_mul, Finset.sum_neg_distrib]
          linarith
  obtain ⟨T, hT⟩ := project_last m S
  have lift : ∀ z' : γ → K, (∀ r, ∑ j, A r j * z' j ≤ b r) → ∀ p ∈ T, p.1 * (∑ j, c j * z' j) ≤ p.2 := by
    intro z' hz'
    refine (hT _).2 ⟨Fin.snoc (α := fun _ => K) (fun j => z' (e.symm j)) (∑ j, c j * z' j), (key _).2 ⟨?_, ?_⟩, ?_⟩
    · simpa using hz'
    · simp
    · simp
  obtain ⟨t₀, h0, hl⟩ := exists_least T _ (lift z hz) B (by
    intro t ht
    obtain ⟨w, hw, rfl⟩ := (hT t).1 ht
    obtain ⟨h1, h2⟩ := (key w).1 hw
    rw [h2]
    exact hB _ h1)
  obtain ⟨w, hw, rfl⟩ := (hT t₀).1 h0
  obtain ⟨h1, h2⟩ := (key w).1 hw
  refine ⟨fun j => w (e j).castSucc, h1, fun z' hz' => ?_⟩
  rw [← h2]
  exact hl _ (lift z' hz')

end IntvalPy.Lp
