/-
C145: the existence test `miranda`, /repo/intvalpy/nonlinear/solution_existence.py.  When it answers `True` for an
enclosing extension of a continuous map, the map has a zero in the box, for any number of unknowns (by the theorem of
Poincaré and Miranda, `ProofsMiranda`).  With sharp extensions the answer is `True` exactly when the components have
opposite signs on opposite faces.
-/
import Verif.ModelNlRec
import Verif.SpecRecFun
import Verif.ProofsMiranda
import Mathlib.Algebra.Order.Ring.Cast
import Mathlib.Data.Rat.Cast.Order
import Mathlib.Algebra.Order.Ring.Pow

set_option autoImplicit false
set_option linter.unusedSectionVars false

namespace IntvalPy
open Spec

variable {K : Type*} [Field K] [LinearOrder K] [IsStrictOrderedRing K]

/-- The `k`-th component of `f` has opposite signs (zero allowed) on the two faces of the box in direction `k`. -/
def FaceSigns {n : ℕ} (f : (Fin n → K) → Fin n → K) (x : Fin n → Iv K) (k : Fin n) : Prop :=
  ((∀ p, InVec p x → p k = (x k).a → f p k ≤ 0) ∧ (∀ p, InVec p x → p k = (x k).b → 0 ≤ f p k)) ∨
  ((∀ p, InVec p x → p k = (x k).a → 0 ≤ f p k) ∧ (∀ p, InVec p x → p k = (x k).b → f p k ≤ 0))

/-- The values of the extension on the two faces have opposite signs. -/
def FaceTest {n : ℕ} (F : (Fin n → Iv K) → Except Err (Fin n → Iv K)) (x : Fin n → Iv K) (k : Fin n) : Prop :=
  ∃ L U, F (fun j => if j = k then ⟨.classical, (x k).a, (x k).a⟩ else x j) = .ok L ∧
    F (fun j => if j = k then ⟨.classical, (x k).b, (x k).b⟩ else x j) = .ok U ∧
    (((L k).b ≤ 0 ∧ 0 ≤ (U k).a) ∨ (0 ≤ (L k).a ∧ (U k).b ≤ 0))

theorem mirandaHalf_true {n : ℕ} (func : (Fin n → Iv K) → Except Err (Fin n → Iv K)) (x : Fin n → Iv K) (k : Fin n)
    (p q : Iv K → Bool) : mirandaHalf func x k p q = .ok true ↔
      ∃ L U, func (mirandaFace x k (x k).a) = .ok L ∧ func (mirandaFace x k (x k).b) = .ok U ∧ p (L k) ∧ q (U k) := by
  unfold mirandaHalf
  cases hL : func (mirandaFace x k (x k).a) with
  | error e => simp
  | ok L =>
      dsimp only
      by_cases hp : p (L k) = true
      · rw [if_pos hp]
        cases hU : func (mirandaFace x k (x k).b) with
        | error e => simp
        | ok U => simp [hp]
      · rw [if_neg hp]
        simp [hp]

theorem mirandaRow_true {n : ℕ} (func : (Fin n → Iv K) → Except Err (Fin n → Iv K)) (x : Fin n → Iv K) (k : Fin n) :
    mirandaRow func x k = .ok true ↔ FaceTest func x k := by
  unfold mirandaRow FaceTest
  constructor
  · intro h
    cases h1 : mirandaHalf func x k (fun Y => decide (Y.b ≤ 0)) (fun Y => decide (0 ≤ Y.a)) with
    | error e => rw [h1] at h; cases h
    | ok t =>
        cases t with
        | true =>
            obtain ⟨L, U, hL, hU, hp, hq⟩ := (mirandaHalf_true _ _ _ _ _).mp h1
            exact ⟨L, U, hL, hU, .inl ⟨of_decide_eq_true hp, of_decide_eq_true hq⟩⟩
        | false =>
            rw [h1] at h
            obtain ⟨L, U, hL, hU, hp, hq⟩ := (mirandaHalf_true _ _ _ _ _).mp h
            exact ⟨L, U, hL, hU, .inr ⟨of_decide_eq_true hp, of_decide_eq_true hq⟩⟩
  · rintro ⟨L, U, hL, hU, h⟩
    have e1 : mirandaHalf func x k (fun Y => decide (Y.b ≤ 0)) (fun Y => decide (0 ≤ Y.a)) =
        .ok (decide ((L k).b ≤ 0) && decide (0 ≤ (U k).a)) := by
      unfold mirandaHalf
      unfold mirandaFace
      rw [hL]
      dsimp only
      by_cases hp : (L k).b ≤ 0
      · rw [if_pos (by simpa using hp), hU]; simp [hp]
      · rw [if_neg (by simpa using hp)]; simp [hp]
    have e2 : mirandaHalf func x k (fun Y => decide (0 ≤ Y.a)) (fun Y => decide (Y.b ≤ 0)) =
        .ok (decide (0 ≤ (L k).a) && decide ((U k).b ≤ 0)) := by
      unfold mirandaHalf
      unfold mirandaFace
      rw [hL]
      dsimp only
      by_cases hp : 0 ≤ (L k).a
      · rw [if_pos (by simpa using hp), hU]; simp [hp]
      · rw [if_neg (by simpa using hp)]; simp [hp]
    rw [e1, e2]
    by_cases ht : (decide ((L k).b ≤ 0) && decide (0 ≤ (U k).a)) = true
    · rw [ht]
    · rw [Bool.eq_false_iff.mpr ht]
      rcases h with h | h
      · exact absurd (by simp [h.1, h.2]) ht
      · simp [h.1, h.2]

/-- C145: the answer is `True` exactly when the values of `func` on every pair of opposite faces have opposite
signs; for a `func` that does not raise there is always an answer. -/
theorem C145_true_iff {n : ℕ} (func : (Fin n → Iv K) → Except Err (Fin n → Iv K)) (x : Fin n → Iv K) :
    (miranda func x = .ok true ↔ ∀ k, FaceTest func x k) ∧
    ((∀ Y, ∃ Z, func Y = .ok Z) → ∃ t, miranda func x = .ok t) := by
  have loop : ∀ l : List (Fin n), (mirandaLoop func x l = .ok true ↔ ∀ k ∈ l, FaceTest func x k) := by
    intro l
    induction l with
    | nil => simp [mirandaLoop]
    | cons k l ih =>
        unfold mirandaLoop
        cases h : mirandaRow func x k with
        | error e =>
            refine ⟨fun h' => (by cases h'), fun h' => ?_⟩
            have := (mirandaRow_true func x k).mpr (h' k List.mem_cons_self)
            rw [h] at this; cases this
        | ok t =>
            cases t with
            | true =>
                have hk := (mirandaRow_true func x k).mp h
                dsimp only
                rw [ih]
                exact ⟨fun h' k' hk' => by
                  rcases List.mem_cons.mp hk' with rfl | hm
                  · exact hk
                  · exact h' k' hm, fun h' k' hk' => h' k' (List.mem_cons_of_mem _ hk')⟩
            | false =>
                refine ⟨fun h' => (by cases h'), fun h' => ?_⟩
                have := (mirandaRow_true func x k).mpr (h' k List.mem_cons_self)
                rw [h] at this; cases this
  constructor
  · unfold miranda
    rw [loop]
    exact ⟨fun h k => h k (List.mem_finRange k), fun h k _ => h k⟩
  · intro htot
    have half : ∀ k p q, ∃ t, mirandaHalf func x k p q = .ok t := by
      intro k p q
      obtain ⟨L, hL⟩ := htot (mirandaFace x k (x k).a)
      obtain ⟨U, hU⟩ := htot (mirandaFace x k (x k).b)
      unfold mirandaHalf
      rw [hL, hU]
      dsimp only
      split <;> exact ⟨_, rfl⟩
    have row : ∀ k, ∃ t, mirandaRow func x k = .ok t := by
      intro k
      unfold mirandaRow
      obtain ⟨t, ht⟩ := half k (fun Y => decide (Y.b ≤ 0)) (fun Y => decide (0 ≤ Y.a))
      rw [ht]
      cases t with
      | true => exact ⟨_, rfl⟩
      | false => exact half k _ _
    have : ∀ l : List (Fin n), ∃ t, mirandaLoop func x l = .ok t := by
      intro l
      induction l with
      | nil => exact ⟨_, rfl⟩
      | cons k l ih =>
          unfold mirandaLoop
          obtain ⟨t, ht⟩ := row k
          rw [ht]
          cases t with
          | true => exact ih
          | false => exact ⟨_, rfl⟩
    exact this _

theorem face_ordinary {n : ℕ} {x : Fin n → Iv K} (hx : ∀ k, Ordinary (x k)) (k : Fin n) (c : K) (j : Fin n) :
    Ordinary (if j = k then (⟨.classical, c, c⟩ : Iv K) else x j) := by
  by_cases h : j = k
  · rw [if_pos h]; exact ⟨rfl, le_rfl⟩
  · rw [if_neg h]; exact hx j

theorem face_mem {n : ℕ} {x : Fin n → Iv K} {p : Fin n → K} (hp : InVec p x) (k : Fin n) (c : K) (hc : p k = c) :
    InVec p fun j => if j = k then (⟨.classical, c, c⟩ : Iv K) else x j := by
  intro j
  dsimp only
  by_cases h : j = k
  · subst h; rw [if_pos rfl, hc]; exact ⟨le_rfl, le_rfl⟩
  · rw [if_neg h]; exact hp j

/-- C145: the answer `True` means that every component of the function changes its sign between opposite faces. -/
theorem C145_signs {n : ℕ} (f : (Fin n → K) → Fin n → K) (func : (Fin n → Iv K) → Except Err (Fin n → Iv K))
    (hfunc : ∀ Y Z, (∀ k, Ordinary (Y k)) → func Y = .ok Z → ∀ p, InVec p Y → ∀ k, f p k ∈ Z k)
    (x : Fin n → Iv K) (hx : ∀ k, Ordinary (x k)) (h : miranda func x = .ok true) (k : Fin n) : FaceSigns f x k := by
  obtain ⟨L, U, hL, hU, hs⟩ := (C145_true_iff func x).1.mp h k
  have l : ∀ p, InVec p x → p k = (x k).a → f p k ∈ L k := fun p hp he =>
    hfunc _ L (face_ordinary hx k _) hL p (face_mem hp k _ he) k
  have u : ∀ p, InVec p x → p k = (x k).b → f p k ∈ U k := fun p hp he =>
    hfunc _ U (face_ordinary hx k _) hU p (face_mem hp k _ he) k
  rcases hs with ⟨h1, h2⟩ | ⟨h1, h2⟩
  · exact .inl ⟨fun p hp he => (l p hp he).2.trans h1, fun p hp he => h2.trans (u p hp he).1⟩
  · exact .inr ⟨fun p hp he => h1.trans (l p hp he).1, fun p hp he => (u p hp he).2.trans h2⟩

/-- C145: for real endpoints: the answer `True` for an enclosing extension of a continuous map means that the map has a
zero in the box. -/
theorem C145_zero {n : ℕ} (f : (Fin n → ℝ) → Fin n → ℝ) (func : (Fin n → Iv ℝ) → Except Err (Fin n → Iv ℝ))
    (hfunc : ∀ Y Z, (∀ k, Ordinary (Y k)) → func Y = .ok Z → ∀ p, InVec p Y → ∀ k, f p k ∈ Z k)
    (x : Fin n → Iv ℝ) (hx : ∀ k, Ordinary (x k)) (hf : ContinuousOn f {p | InVec p x})
    (h : miranda func x = .ok true) : ∃ p, InVec p x ∧ ∀ k, f p k = 0 := by
  have hbox : {p | InVec p x} = Set.Icc (fun k => (x k).a) (fun k => (x k).b) := by
    ext p
    exact ⟨fun hp => ⟨fun k => (hp k).1, fun k => (hp k).2⟩, fun hp k => ⟨hp.1 k, hp.2 k⟩⟩
  rw [hbox] at hf
  have hm : ∀ p, p ∈ Set.Icc (fun k => (x k).a) (fun k => (x k).b) → InVec p x := fun p hp k => ⟨hp.1 k, hp.2 k⟩
  obtain ⟨p, hp, hz⟩ := Miranda.poincare_miranda_signs _ _ (fun k => (hx k).2) f hf (fun k => by
    rcases C145_signs f func hfunc x hx h k with h | h
    · exact .inl ⟨fun p hp he => h.1 p (hm p hp) he, fun p hp he => h.2 p (hm p hp) he⟩
    · exact .inr ⟨fun p hp he => h.1 p (hm p hp) he, fun p hp he => h.2 p (hm p hp) he⟩)
  exact ⟨p, hm p hp, hz⟩

/-- The point of `ℝⁿ` lies in the box with rational (for instance binary64) endpoints. -/
def InBoxR {n : ℕ} (p : Fin n → ℝ) (x : Fin n → Iv ℚ) : Prop := ∀ k, ((x k).a : ℝ) ≤ p k ∧ p k ≤ ((x k).b : ℝ)

/-- C145: for rational endpoints, in particular all finite doubles, and any rounding inside `func`: the answer `True`
means that the continuous real map enclosed by `func` has a zero in the box. -/
theorem C145_zero_rat {n : ℕ} (f : (Fin n → ℝ) → Fin n → ℝ) (func : (Fin n → Iv ℚ) → Except Err (Fin n → Iv ℚ))
    (hfunc : ∀ Y Z, (∀ k, Ordinary (Y k)) → func Y = .ok Z → ∀ p, InBoxR p Y → InBoxR (f p) Z)
    (x : Fin n → Iv ℚ) (hx : ∀ k, Ordinary (x k)) (hf : ContinuousOn f {p | InBoxR p x})
    (h : miranda func x = .ok true) : ∃ p, InBoxR p x ∧ ∀ k, f p k = 0 := by
  have hbox : {p | InBoxR p x} = Set.Icc (fun k => ((x k).a : ℝ)) (fun k => ((x k).b : ℝ)) := by
    ext p
    exact ⟨fun hp => ⟨fun k => (hp k).1, fun k => (hp k).2⟩, fun hp k => ⟨hp.1 k, hp.2 k⟩⟩
  rw [hbox] at hf
  have hm : ∀ p, p ∈ Set.Icc (fun k => ((x k).a : ℝ)) (fun k => ((x k).b : ℝ)) → InBoxR p x :=
    fun p hp k => ⟨hp.1 k, hp.2 k⟩
  have hface : ∀ (p : Fin n → ℝ) (k : Fin n) (c : ℚ), InBoxR p x → p k = c →
      InBoxR p fun j => if j = k then (⟨.classical, c, c⟩ : Iv ℚ) else x j := by
    intro p k c hp hc j
    dsimp only
    by_cases he : j = k
    · subst he; rw [if_pos rfl, hc]; exact ⟨le_rfl, le_rfl⟩
    · rw [if_neg he]; exact hp j
  obtain ⟨p, hp, hz⟩ := Miranda.poincare_miranda_signs _ _ (fun k => by exact_mod_cast (hx k).2) f hf (fun k => by
    obtain ⟨L, U, hL, hU, hs⟩ := (C145_true_iff func x).1.mp h k
    have l : ∀ p, InBoxR p x → p k = ((x k).a : ℝ) → ((L k).a : ℝ) ≤ f p k ∧ f p k ≤ ((L k).b : ℝ) := fun p hp he =>
      hfunc _ L (face_ordinary hx k _) hL p (hface p k _ hp he) k
    have u : ∀ p, InBoxR p x → p k = ((x k).b : ℝ) → ((U k).a : ℝ) ≤ f p k ∧ f p k ≤ ((U k).b : ℝ) := fun p hp he =>
      hfunc _ U (face_ordinary hx k _) hU p (hface p k _ hp he) k
    rcases hs with ⟨h1, h2⟩ | ⟨h1, h2⟩
    · have h1' : ((L k).b : ℝ) ≤ 0 := by exact_mod_cast h1
      have h2' : (0 : ℝ) ≤ ((U k).a : ℝ) := by exact_mod_cast h2
      exact .inl ⟨fun p hp he => (l p (hm p hp) he).2.trans h1', fun p hp he => h2'.trans (u p (hm p hp) he).1⟩
    · have h1' : (0 : ℝ) ≤ ((L k).a : ℝ) := by exact_mod_cast h1
      have h2' : ((U k).b : ℝ) ≤ 0 := by exact_mod_cast h2
      exact .inr ⟨fun p hp he => h1'.trans (l p (hm p hp) he).1, fun p hp he => (u p (hm p hp) he).2.trans h2'⟩)
  exact ⟨p, hm p hp, hz⟩

/-- C145: with an extension that is sharp on the faces the answer is `True` exactly when the signs are opposite. -/
theorem C145_sharp {n : ℕ} (f : (Fin n → K) → Fin n → K) (F : (Fin n → Iv K) → Fin n → Iv K)
    (hF : ∀ Y k, (∀ j, Ordinary (Y j)) → IsRange (F Y k) (fun s => ∃ p, InVec p Y ∧ s = f p k))
    (x : Fin n → Iv K) (hx : ∀ k, Ordinary (x k)) :
    (miranda (fun Y => .ok (F Y)) x = .ok true ↔ ∀ k, FaceSigns f x k) ∧
    (miranda (fun Y => .ok (F Y)) x = .ok false ↔ ¬ ∀ k, FaceSigns f x k) := by
  have main : miranda (fun Y => .ok (F Y)) x = .ok true ↔ ∀ k, FaceSigns f x k := by
    constructor
    · exact fun h => C145_signs f _ (fun Y Z hY hZ p hp k => by
        cases hZ; exact (hF Y k hY).1 _ ⟨p, hp, rfl⟩) x hx h
    · intro h
      refine (C145_true_iff _ x).1.mpr fun k => ⟨_, _, rfl, rfl, ?_⟩
      have out : ∀ (c : K), (x k).a ≤ c → c ≤ (x k).b → ∀ p, InVec p (fun j => if j = k then (⟨.classical, c, c⟩ : Iv K) else x j) →
          InVec p x ∧ p k = c := by
        intro c h1 h2 p hp
        have hk := hp k
        dsimp only at hk
        rw [if_pos rfl] at hk
        have e : p k = c := le_antisymm hk.2 hk.1
        refine ⟨fun j => ?_, e⟩
        by_cases he : j = k
        · subst he; rw [e]; exact ⟨h1, h2⟩
        · have := hp j
          dsimp only at this
          rwa [if_neg he] at this
      obtain ⟨-, ⟨p1, hp1, e1⟩, ⟨p2, hp2, e2⟩⟩ := hF _ k (face_ordinary hx k (x k).a)
      obtain ⟨-, ⟨q1, hq1, g1⟩, ⟨q2, hq2, g2⟩⟩ := hF _ k (face_ordinary hx k (x k).b)
      have o1 := out _ le_rfl (hx k).2 p1 hp1
      have o2 := out _ le_rfl (hx k).2 p2 hp2
      have o3 := out _ (hx k).2 le_rfl q1 hq1
      have o4 := out _ (hx k).2 le_rfl q2 hq2
      rw [e1, e2, g1, g2]
      rcases h k with h | h
      · exact .inl ⟨h.1 _ o2.1 o2.2, h.2 _ o3.1 o3.2⟩
      · exact .inr ⟨h.1 _ o1.1 o1.2, h.2 _ o4.1 o4.2⟩
  refine ⟨main, ?_⟩
  rw [← main]
  obtain ⟨t, ht⟩ := (C145_true_iff (fun Y => .ok (F Y)) x).2 fun Y => ⟨_, rfl⟩
  rw [ht]
  cases t <;> simp

/-- An enclosing extension of `(p₀ + p₁³, p₁ - p₀³ / 2)`. -/
def mirF (Y : Fin 2 → Iv ℚ) : Except Err (Fin 2 → Iv ℚ) :=
  .ok ![⟨.classical, (Y 0).a + (Y 1).a ^ 3, (Y 0).b + (Y 1).b ^ 3⟩,
    ⟨.classical, (Y 1).a - (Y 0).b ^ 3 / 2, (Y 1).b - (Y 0).a ^ 3 / 2⟩]

/-- The hypotheses hold: the test succeeds on `[-1, 1]²` and fails on `[-1, 2]²`. -/
example : (∃ p, InBoxR p (fun _ : Fin 2 => ⟨.classical, -1, 1⟩) ∧ p 0 + p 1 ^ 3 = 0 ∧ p 1 - p 0 ^ 3 / 2 = 0) ∧
    miranda mirF (fun _ : Fin 2 => ⟨.classical, -1, 2⟩) = .ok false := by
  have cube : ∀ s t : ℝ, s ≤ t → s ^ 3 ≤ t ^ 3 := fun s t h => (Odd.strictMono_pow (by decide)).monotone h
  constructor
  · obtain ⟨p, hp, hz⟩ := C145_zero_rat (fun p : Fin 2 → ℝ => ![p 0 + p 1 ^ 3, p 1 - p 0 ^ 3 / 2]) mirF (by
        intro Y Z _ hZ p hp k
        cases hZ
        have h0 := hp 0
        have h1 := hp 1
        have a1 := cube _ _ h0.1
        have a2 := cube _ _ h0.2
        have b1 := cube _ _ h1.1
        have b2 := cube _ _ h1.2
        fin_cases k
        · constructor
          · show (((Y 0).a + (Y 1).a ^ 3 : ℚ) : ℝ) ≤ p 0 + p 1 ^ 3
            push_cast; linarith
          · show p 0 + p 1 ^ 3 ≤ (((Y 0).b + (Y 1).b ^ 3 : ℚ) : ℝ)
            push_cast; linarith
        · constructor
          · show (((Y 1).a - (Y 0).b ^ 3 / 2 : ℚ) : ℝ) ≤ p 1 - p 0 ^ 3 / 2
            push_cast; linarith
          · show p 1 - p 0 ^ 3 / 2 ≤ (((Y 1).b - (Y 0).a ^ 3 / 2 : ℚ) : ℝ)
            push_cast; linarith)
      (fun _ => ⟨.classical, -1, 1⟩) (fun _ => ⟨rfl, by norm_num⟩)
      (Continuous.continuousOn (by
        refine continuous_pi fun k => ?_
        fin_cases k
        · show Continuous fun p : Fin 2 → ℝ => p 0 + p 1 ^ 3
          fun_prop
        · show Continuous fun p : Fin 2 → ℝ => p 1 - p 0 ^ 3 / 2
          fun_prop)) (by decide +kernel)
    exact ⟨p, hp, hz 0, hz 1⟩
  · decide +kernel

end IntvalPy
