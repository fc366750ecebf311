import Verif.PropsUtils

/-!
# Exactly when the helper functions treat an array element by element (C96)
-/

set_option autoImplicit false
set_option linter.unusedSectionVars false

namespace IntvalPy
open Spec

/-- A Python number whose value is an integer in the range of `int64`. -/
def InInt64 (v : Num) : Prop := ∃ k : ℤ, v.val = .fin k ∧ -(2 ^ 63) ≤ k ∧ k < 2 ^ 63

/-- The cast to `int64` succeeds and keeps the value exactly for integral values in range. -/
theorem toInt64_keeps (v : Num) : (∃ w, toInt64 v = .ok w ∧ w.val = v.val) ↔ InInt64 v := by
  cases v with
  | int z =>
    simp only [toInt64, InInt64, Num.val, Dbl.fin.injEq, Int.cast_inj]
    constructor
    · rintro ⟨w, h, _⟩
      split_ifs at h with h1
      exact ⟨z, rfl, h1⟩
    · rintro ⟨k, rfl, h1⟩
      exact ⟨.int z, by rw [if_pos h1], rfl⟩
  | dbl d =>
    cases d with
    | fin q =>
      simp only [toInt64, InInt64, Num.val, Dbl.fin.injEq]
      constructor
      · rintro ⟨w, h, e⟩
        split_ifs at h with h1
        cases h
        simp only [Dbl.fin.injEq] at e
        exact ⟨truncQ q, e.symm, h1⟩
      · rintro ⟨k, rfl, h1⟩
        have e : truncQ (k : ℚ) = k := by simp [truncQ]
        rw [e, if_pos h1]
        exact ⟨_, rfl, rfl⟩
    | nan => simp [toInt64, InInt64, Num.val]
    | pinf => simp [toInt64, InInt64, Num.val]
    | ninf => simp [toInt64, InInt64, Num.val]

theorem mapM_ok_each {α β : Type} (f : α → Except Err β) : ∀ (xs : List α) (l : List β), xs.mapM f = .ok l →
    ∀ x ∈ xs, ∃ v, f x = .ok v
  | [], _, _ => by simp
  | x :: xs, l, h => by
    rw [List.mapM_cons] at h
    cases hx : f x with
    | error e => rw [hx] at h; cases h
    | ok v =>
      cases hr : xs.mapM f with
      | error e => rw [hx, hr] at h; cases h
      | ok l' =>
        intro y hy
        rcases List.mem_cons.mp hy with rfl | hy
        · exact ⟨v, hx⟩
        · exact mapM_ok_each f xs l' hr y hy

/-- The array is right exactly when the cast keeps every value. -/
theorem elementwise_iff {h : Helper} {m : Mode} {xs : List UArg} {vs : List Num} (g : Num → Except Err Num)
    (hvs : xs.mapM (h.elem m) = .ok vs) (hg : npVectorizeNum vs = vs.mapM g) :
    Elementwise h m xs ↔ ∀ x ∈ xs, ∀ v, h.elem m x = .ok v → ∃ w, g v = .ok w ∧ w.val = v.val := by
  obtain ⟨vs', h1, h2, h3⟩ := mapM_get (h.elem m) xs (mapM_ok_each _ xs vs hvs)
  rw [hvs] at h1
  cases h1
  constructor
  · rintro ⟨l, hl, hlen, hget⟩ x hx v hv
    simp only [Helper.onArray, hvs, hg] at hl
    obtain ⟨l', g1, g2, g3⟩ := mapM_get g vs (mapM_ok_each g vs l hl)
    rw [hl] at g1
    cases g1
    obtain ⟨i, hi⟩ := List.mem_iff_getElem?.mp hx
    obtain ⟨w, a1, a2⟩ := h3 i x hi
    obtain ⟨u, b1, b2⟩ := g3 i w a1
    obtain ⟨p, q, c1, c2, c3⟩ := hget i x hi
    rw [b1] at c1
    cases c1
    rw [hv] at a2 c2
    cases a2
    cases c2
    exact ⟨u, b2, c3⟩
  · intro hall
    have hok : ∀ v ∈ vs, ∃ w, g v = .ok w ∧ w.val = v.val := by
      intro v hv
      obtain ⟨i, hi⟩ := List.mem_iff_getElem?.mp hv
      have hlt : i < xs.length := by rw [← h2]; exact (List.getElem?_eq_some_iff.mp hi).1
      obtain ⟨w, a1, a2⟩ := h3 i xs[i] (List.getElem?_eq_getElem hlt)
      rw [hi] at a1
      cases a1
      exact hall _ (List.getElem_mem hlt) v a2
    obtain ⟨l, g1, g2, g3⟩ := mapM_get g vs fun v hv => (hok v hv).imp fun w h => h.1
    refine ⟨l, by simp only [Helper.onArray, hvs, hg, g1], g2.trans h2, fun i x hi => ?_⟩
    obtain ⟨w, a1, a2⟩ := h3 i x hi
    obtain ⟨u, b1, b2⟩ := g3 i w a1
    obtain ⟨t, c1, c2⟩ := hok w (List.mem_iff_getElem?.mpr ⟨i, a1⟩)
    rw [b2] at c1
    cases c1
    exact ⟨u, w, b1, a2, c2⟩

/-- C96, exactly: let the helper process every element and let `f` be the value at the first one.  If `f` is an integer
of `int64` the returned array is right exactly when all values are integers of `int64`; if `f` is a larger integer it
is right; if `f` is a float it is right exactly when every value is a float or an integer equal to a float. -/
theorem C96_iff (h : Helper) (m : Mode) (x : UArg) (rest : List UArg) (f : Num) (hf : h.elem m x = .ok f)
    (hok : ∀ y ∈ x :: rest, ∃ v, h.elem m y = .ok v) :
    (InInt64 f → (∃ z, f = .int z) →
      (Elementwise h m (x :: rest) ↔ ∀ y ∈ x :: rest, ∀ v, h.elem m y = .ok v → InInt64 v)) ∧
    (¬ InInt64 f → (∃ z, f = .int z) → Elementwise h m (x :: rest)) ∧
    ((∃ d, f = .dbl d) → (Elementwise h m (x :: rest) ↔
      ∀ y ∈ x :: rest, ∀ v, h.elem m y = .ok v → (∃ d, v = .dbl d) ∨ ∃ z : ℤ, v = .int z ∧ round .nearest z = .fin z)) := by
  obtain ⟨vs, h1, h2, h3⟩ := mapM_get (h.elem m) (x :: rest) hok
  obtain ⟨vs', rfl⟩ : ∃ vs', vs = f :: vs' := by
    obtain ⟨w, a1, a2⟩ := h3 0 x rfl
    rw [hf] at a2
    cases a2
    cases vs with
    | nil => cases a1
    | cons v vs' =>
      simp only [List.getElem?_cons_zero, Option.some.injEq] at a1
      exact ⟨vs', by rw [a1]⟩
  refine ⟨?_, ?_, ?_⟩
  · rintro ⟨k, hk, hr⟩ ⟨z, rfl⟩
    have hz : -(2 ^ 63) ≤ z ∧ z < 2 ^ 63 := by
      simp only [Num.val, Dbl.fin.injEq, Int.cast_inj] at hk
      rw [hk]; exact hr
    rw [elementwise_iff toInt64 h1 (by rw [npVectorizeNum, if_pos hz])]
    simp only [toInt64_keeps]
  · rintro hn ⟨z, rfl⟩
    have hz : ¬ (-(2 ^ 63) ≤ z ∧ z < 2 ^ 63) := fun hz => hn ⟨z, rfl, hz⟩
    refine elementwise_of hok fun us hus => ?_
    rw [h1] at hus
    cases hus
    exact ⟨_, by rw [npVectorizeNum, if_neg hz], rfl⟩
  · rintro ⟨d, rfl⟩
    rw [elementwise_iff (fun v => v.toDbl.map Num.dbl) h1 rfl]
    refine forall_congr' fun y => forall_congr' fun _ => forall_congr' fun v => forall_congr' fun _ => ?_
    cases v with
    | dbl e => simp [Num.toDbl, Except.map, Num.val]
    | int z =>
      simp only [reduceCtorEq, exists_false, false_or, Num.int.injEq, exists_eq_left']
      simp only [Num.toDbl, Num.val]
      cases hr : round .nearest (z : ℚ) <;> simp [Except.map]

/-- An array starting with an integer endpoint: the value `1/4` at the second place is lost. -/
example : ¬ Elementwise .wid .nearest [.iv ⟨.classical, .int 1, .int 2⟩,
      .iv ⟨.classical, .dbl (.fin (1 / 4)), .dbl (.fin (1 / 2))⟩] ∧
    Helper.elem .wid .nearest (.iv ⟨.classical, .int 1, .int 2⟩) = .ok (.int 1) := by
  have e1 : Helper.elem .wid .nearest (.iv ⟨.classical, .int 1, .int 2⟩) = .ok (.int 1) := rfl
  have e2 : Helper.elem .wid .nearest (.iv ⟨.classical, .dbl (.fin (1 / 4)), .dbl (.fin (1 / 2))⟩) =
      .ok (.dbl (.fin (1 / 4))) := by decide +kernel
  refine ⟨fun he => ?_, e1⟩
  have := ((C96_iff .wid .nearest _ _ _ e1 (fun y hy => by
    rcases List.mem_cons.mp hy with rfl | hy
    · exact ⟨_, e1⟩
    · rw [List.mem_singleton.mp hy]; exact ⟨_, e2⟩)).1 ⟨1, rfl, by norm_num, by norm_num⟩ ⟨1, rfl⟩).mp he _
    (List.mem_cons_of_mem _ (List.mem_singleton.mpr rfl)) _ e2
  obtain ⟨k, hk, _⟩ := this
  simp only [Num.val, Dbl.fin.injEq] at hk
  have h4 : ((4 * k : ℤ) : ℚ) = (1 : ℤ) := by push_cast; linarith
  have := Int.cast_injective h4
  omega

end IntvalPy
