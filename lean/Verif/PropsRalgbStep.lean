import Mathlib.Algebra.BigOperators.Field
import Mathlib.Data.Real.Sqrt
import Mathlib.Tactic.LinearCombination
import Verif.PropsRalgb

/-!
# C109, C110: the steps of ralgb5

Every step of the optimiser goes against the subgradient at the point it starts from, and no vector of length zero is
normalised.  In one variable the exit code 3 bounds the distance to every better point.
-/

set_option autoImplicit false
set_option linter.unusedSectionVars false

namespace IntvalPy
open Spec

variable {K : Type*} [Field K] [LinearOrder K] [IsStrictOrderedRing K] {m n : ℕ}

/-- `np.linalg.norm` is the Euclidean length and `v / np.linalg.norm(v)` the quotient; for the zero vector numpy gives
`nan` and nothing is assumed. -/
structure Euclidean (P : RalgPar K n) : Prop where
  nonneg : ∀ v, 0 ≤ P.norm v
  sq : ∀ v, P.norm v * P.norm v = ∑ i, v i * v i
  unit : ∀ v, v ≠ 0 → ∀ i, P.normalize v i = v i / P.norm v

/-- Positive parameters, as in the default arguments. -/
structure Positive (P : RalgPar K n) : Prop where
  tolg : 0 < P.tolg
  alpha : 0 < P.alpha
  h0 : 0 < P.h0
  q1 : 0 < P.q1
  q2 : 0 < P.q2

/-- Each point of the list is reached from the one before it by a step against its subgradient. -/
def AgainstGradient (calcfg : (Fin n → K) → K × (Fin n → K)) (evals : List (Fin n → K)) : Prop :=
  ∀ (l1 l2 : List (Fin n → K)) (p q : Fin n → K), evals = l1 ++ p :: q :: l2 →
    ∑ i, (calcfg p).2 i * (q i - p i) < 0

/-- `calcfg` returns the values and subgradients of a convex function. -/
def SubgradOracle (calcfg : (Fin n → K) → K × (Fin n → K)) : Prop :=
  ∀ x y, (calcfg x).1 + ∑ i, (calcfg x).2 i * (y i - x i) ≤ (calcfg y).1

theorem Euclidean.norm_pos {P : RalgPar K n} (hE : Euclidean P) {v : Fin n → K} (hv : v ≠ 0) : 0 < P.norm v := by
  rcases (hE.nonneg v).lt_or_eq with h | h
  · exact h
  · exfalso
    apply hv
    have h1 := hE.sq v
    rw [← h, mul_zero] at h1
    funext i
    have := (Finset.sum_eq_zero_iff_of_nonneg (fun i _ => mul_self_nonneg (v i))).1 h1.symm i (Finset.mem_univ i)
    exact mul_self_eq_zero.1 this

theorem Euclidean.norm_zero {P : RalgPar K n} (hE : Euclidean P) : P.norm 0 = 0 := by
  have := hE.sq 0
  simpa using this

theorem Euclidean.unit_sq {P : RalgPar K n} (hE : Euclidean P) {v : Fin n → K} (hv : v ≠ 0) :
    ∑ i, P.normalize v i * P.normalize v i = 1 := by
  have hp := hE.norm_pos hv
  have : ∀ i, P.normalize v i * P.normalize v i = v i * v i / (P.norm v * P.norm v) := by
    intro i
    rw [hE.unit v hv i]
    field_simp
  rw [Finset.sum_congr rfl fun i _ => this i, ← Finset.sum_div, ← hE.sq v]
  exact div_self (mul_pos hp hp).ne'

theorem Euclidean.unit_dot {P : RalgPar K n} (hE : Euclidean P) {v : Fin n → K} (hv : v ≠ 0) :
    ∑ i, P.normalize v i * v i = P.norm v := by
  have hp := hE.norm_pos hv
  have : ∀ i, P.normalize v i * v i = v i * v i / P.norm v := by
    intro i
    rw [hE.unit v hv i]
    field_simp
  rw [Finset.sum_congr rfl fun i _ => this i, ← Finset.sum_div, ← hE.sq v]
  field_simp

/-- The transposed matrix maps only zero to zero. -/
def NonSing (B : Fin n → Fin n → K) : Prop := ∀ g, matTVec B g = 0 → g = 0

/-- `(B v) · g = v · (Bᵀ g)`. -/
theorem dot_matVecF (B : Fin n → Fin n → K) (v g : Fin n → K) :
    dotF (matVecF B v) g = ∑ j, v j * matTVec B g j := by
  simp only [dotF, matVecF, matTVec, Finset.sum_mul, Finset.mul_sum]
  rw [Finset.sum_comm]
  exact Finset.sum_congr rfl fun j _ => Finset.sum_congr rfl fun i _ => by ring

/-- The direction of a step makes a positive product with the subgradient. -/
theorem direction_pos {P : RalgPar K n} (hE : Euclidean P) {B : Fin n → Fin n → K} (hB : NonSing B) {g : Fin n → K}
    (hg : g ≠ 0) : 0 < dotF (matVecF B (P.normalize (matTVec B g))) g := by
  have h : matTVec B g ≠ 0 := fun h => hg (hB g h)
  rw [dot_matVecF, hE.unit_dot h]
  exact hE.norm_pos h

/-- The dilation keeps the matrix nonsingular. -/
theorem dilation_nonsing {B : Fin n → Fin n → K} (hB : NonSing B) {xi : Fin n → K} (hxi : ∑ i, xi i * xi i = 1) {alpha : K}
    (ha : 0 < alpha) : NonSing fun i j => B i j + (1 / alpha - 1) * (matVecF B xi i * xi j) := by
  intro g h
  apply hB
  set u := matTVec B g with hu
  set w : K := 1 / alpha - 1 with hw
  have e : ∀ j, u j + w * ((∑ k, xi k * u k) * xi j) = 0 := by
    intro j
    have := congrFun h j
    simp only [matTVec, Pi.zero_apply] at this
    rw [← this, ← dot_matVecF, hu, matTVec, dotF, Finset.sum_mul, Finset.mul_sum, ← Finset.sum_add_distrib]
    exact Finset.sum_congr rfl fun i _ => by ring
  have e2 : (∑ k, xi k * u k) * (1 + w) = 0 := by
    have h1 : ∑ j, xi j * (u j + w * ((∑ k, xi k * u k) * xi j)) = 0 :=
      Finset.sum_eq_zero fun j _ => by rw [e j, mul_zero]
    have h2 : ∑ j, xi j * (u j + w * ((∑ k, xi k * u k) * xi j)) =
        (∑ k, xi k * u k) + w * (∑ k, xi k * u k) * ∑ j, xi j * xi j := by
      rw [Finset.mul_sum, ← Finset.sum_add_distrib]
      exact Finset.sum_congr rfl fun j _ => by ring
    rw [h2, hxi] at h1
    linear_combination h1
  have hw1 : (1 + w) ≠ 0 := by
    rw [hw]
    have : 0 < 1 / alpha := by positivity
    intro h; linarith
  have e3 : ∑ k, xi k * u k = 0 := (mul_eq_zero.1 e2).resolve_right hw1
  funext j
  have := e j
  rw [e3] at this
  simpa using this

theorem AgainstGradient.append {calcfg : (Fin n → K) → K × (Fin n → K)} {evals : List (Fin n → K)}
    (h : AgainstGradient calcfg evals) {p q : Fin n → K} (hp : evals.getLast? = some p)
    (hq : ∑ i, (calcfg p).2 i * (q i - p i) < 0) : AgainstGradient calcfg (evals ++ [q]) := by
  intro l1 l2 a b e
  rcases List.eq_nil_or_concat l2 with rfl | ⟨l3, z, rfl⟩
  · have e' : evals ++ [q] = (l1 ++ [a]) ++ [b] := by rw [e]; simp
    obtain ⟨e1, e2⟩ := List.append_inj' e' rfl
    rw [e1] at hp
    simp only [List.getLast?_append, List.getLast?_singleton, Option.some_or, Option.some.injEq] at hp
    simp only [List.cons.injEq, and_true] at e2
    rw [← e2, hp]
    exact hq
  · have e' : evals ++ [q] = (l1 ++ a :: b :: l3) ++ [z] := by rw [e]; simp
    obtain ⟨e1, _⟩ := List.append_inj' e' rfl
    exact h l1 l3 a b e1

/-- The invariant of the evaluated points. -/
structure StepInv (calcfg : (Fin n → K) → K × (Fin n → K)) (s : RalgSt K n) : Prop where
  hs : 0 < s.hs
  last : s.evals.getLast? = some s.x
  steps : AgainstGradient calcfg s.evals

/-- What the line search keeps, when started from `p`. -/
def Line.Steps (P : RalgPar K n) (calcfg : (Fin n → K) → K × (Fin n → K)) (dx : Fin n → K) (normdx : K) (p : Fin n → K)
    (B : Fin n → Fin n → K) (g0 : Fin n → K) : Line K n → Prop
  | .ret o => AgainstGradient calcfg o.evals
  | .done s g1 deltax cal => StepInv calcfg s ∧ s.B = B ∧ s.g0 = g0 ∧ g1 = (calcfg s.x).2 ∧ ¬ P.norm g1 < P.tolg ∧
      (500 < cal ∨ dotF dx g1 ≤ 0) ∧ ∃ t : K, 0 ≤ t ∧ (∀ i, s.x i = p i - t * dx i) ∧ deltax = t * normdx

theorem lineSearch_steps {P : RalgPar K n} (hP : Positive P) (calcfg : (Fin n → K) → K × (Fin n → K)) (dx : Fin n → K)
    (normdx : K) (p : Fin n → K) (B : Fin n → Fin n → K) (g0 : Fin n → K) (fuel cal : ℕ) (deltax : K) (g1 : Fin n → K)
    (d : K) (s : RalgSt K n) (hI : StepInv calcfg s) (hB : s.B = B) (hg0 : s.g0 = g0) (hc : fuel + cal = 501)
    (hd : 0 < d → 0 < dotF dx (calcfg s.x).2)
    (hend : ¬ (0 < d ∧ cal ≤ 500) → g1 = (calcfg s.x).2 ∧ ¬ P.norm g1 < P.tolg ∧ (500 < cal ∨ dotF dx g1 ≤ 0))
    (ht : ∃ t : K, 0 ≤ t ∧ (∀ i, s.x i = p i - t * dx i) ∧ deltax = t * normdx) :
    (lineSearch P calcfg dx normdx fuel cal deltax g1 d s).Steps P calcfg dx normdx p B g0 := by
  induction fuel generalizing cal deltax g1 d s with
  | zero =>
    obtain ⟨h1, h2, h3⟩ := hend (fun h => by omega)
    exact ⟨hI, hB, hg0, h1, h2, h3, ht⟩
  | succ fuel ih =>
    rw [lineSearch]
    by_cases hd0 : 0 < d
    · rw [if_pos hd0]
      simp only
      set x : Fin n → K := fun i => s.x i - s.hs * dx i with hx
      set r := calcfg x with hr
      set s1 : RalgSt K n := { s with x := x, ncalls := s.ncalls + 1, evals := s.evals ++ [x] } with hs1
      set s2 : RalgSt K n := if r.1 < s1.fr then { s1 with fr := r.1, xr := x } else s1 with hs2
      have hdx := hd hd0
      have hev : AgainstGradient calcfg (s.evals ++ [x]) := by
        refine hI.steps.append hI.last ?_
        have : ∑ i, (calcfg s.x).2 i * (x i - s.x i) = - s.hs * dotF dx (calcfg s.x).2 := by
          rw [dotF, Finset.mul_sum]
          exact Finset.sum_congr rfl fun i _ => by rw [hx]; ring
        rw [this]
        have := mul_pos hI.hs hdx
        linarith
      have e2 : s2.hs = s.hs ∧ s2.x = x ∧ s2.evals = s.evals ++ [x] ∧ s2.B = B ∧ s2.g0 = g0 := by
        rw [hs2]; split_ifs <;> exact ⟨rfl, rfl, rfl, hB, hg0⟩
      have ht2 : ∃ t : K, 0 ≤ t ∧ (∀ i, s2.x i = p i - t * dx i) ∧ deltax + s.hs * normdx = t * normdx := by
        obtain ⟨t, t0, t1, t2⟩ := ht
        refine ⟨t + s.hs, add_nonneg t0 hI.hs.le, fun i => ?_, by rw [t2]; ring⟩
        rw [e2.2.1, hx]
        simp only [t1 i]
        ring
      by_cases hg : P.norm r.2 < P.tolg
      · rw [if_pos hg]
        change AgainstGradient calcfg s2.evals
        rw [e2.2.2.1]
        exact hev
      rw [if_neg hg]
      have key : ∀ s3 : RalgSt K n, 0 < s3.hs → s3.x = s2.x → s3.evals = s2.evals → s3.B = s2.B → s3.g0 = s2.g0 →
          (lineSearch P calcfg dx normdx fuel (cal + 1) (deltax + s.hs * normdx) r.2 (dotF dx r.2) s3).Steps P calcfg dx
            normdx p B g0 := by
        intro s3 h1 h2 h3 h4 h5
        have hx3 : s3.x = x := h2.trans e2.2.1
        refine ih _ _ _ _ s3 ⟨h1, ?_, ?_⟩ (h4.trans e2.2.2.2.1) (h5.trans e2.2.2.2.2) (by omega) ?_ ?_ ?_
        · rw [h3, e2.2.2.1, hx3]; simp
        · rw [h3, e2.2.2.1]; exact hev
        · rw [hx3]; exact id
        · intro h
          rw [hx3]
          refine ⟨rfl, hg, ?_⟩
          by_cases hc5 : 500 < cal + 1
          · exact Or.inl hc5
          · exact Or.inr (not_lt.1 fun h' => h ⟨h', by omega⟩)
        · rw [h2]; exact ht2
      by_cases hc3 : cal % P.nh = 0
      · rw [if_pos hc3]
        exact key _ (by simpa [e2.1] using mul_pos hI.hs hP.q2) rfl rfl rfl rfl
      · rw [if_neg hc3]
        exact key _ (by rw [e2.1]; exact hI.hs) rfl rfl rfl rfl
    · rw [if_neg hd0]
      obtain ⟨h1, h2, h3⟩ := hend (fun h => hd0 h.1)
      exact ⟨hI, hB, hg0, h1, h2, h3, ht⟩

/-- The invariant of the main loop. -/
structure LoopInv (P : RalgPar K n) (calcfg : (Fin n → K) → K × (Fin n → K)) (s : RalgSt K n) : Prop where
  step : StepInv calcfg s
  grad : s.g0 = (calcfg s.x).2
  big : ¬ P.norm s.g0 < P.tolg
  reg : NonSing s.B

/-- What is promised about the points evaluated by the loop: the last two turning points when the code is 3. -/
def RalgOut.Turn (P : RalgPar K n) (calcfg : (Fin n → K) → K × (Fin n → K)) (o : RalgOut K n) : Prop :=
  AgainstGradient calcfg o.evals ∧
    (o.ccode = 3 → ∃ p ∈ o.evals, ∃ q, o.evals.getLast? = some q ∧ ∃ (dx : Fin n → K) (t : K), 0 ≤ t ∧
      (∀ i, q i = p i - t * dx i) ∧ t * P.norm dx < P.tolx ∧ 0 < dotF dx (calcfg p).2 ∧ dotF dx (calcfg q).2 ≤ 0)

theorem lineSearch_evals (P : RalgPar K n) (calcfg : (Fin n → K) → K × (Fin n → K)) (dx : Fin n → K) (normdx : K)
    (fuel cal : ℕ) (deltax : K) (g1 : Fin n → K) (d : K) (s : RalgSt K n) {s' : RalgSt K n} {g1' : Fin n → K} {dl : K}
    {c : ℕ} (h : lineSearch P calcfg dx normdx fuel cal deltax g1 d s = .done s' g1' dl c) :
    ∀ e ∈ s.evals, e ∈ s'.evals := by
  induction fuel generalizing cal deltax g1 d s with
  | zero => rw [lineSearch] at h; cases h; exact fun e he => he
  | succ fuel ih =>
    rw [lineSearch] at h
    by_cases hd0 : 0 < d
    · rw [if_pos hd0] at h
      simp only at h
      by_cases hg : P.norm (calcfg fun i => s.x i - s.hs * dx i).2 < P.tolg
      · rw [if_pos hg] at h; cases h
      rw [if_neg hg] at h
      intro e he
      refine ih _ _ _ _ _ h e ?_
      split_ifs <;> simp [he]
    · rw [if_neg hd0] at h
      cases h; exact fun e he => he

theorem lineSearch_code {P : RalgPar K n} {calcfg : (Fin n → K) → K × (Fin n → K)} {dx : Fin n → K} {normdx : K}
    {fuel cal : ℕ} {deltax : K} {g1 : Fin n → K} {d : K} {s : RalgSt K n} {o : RalgOut K n}
    (h : lineSearch P calcfg dx normdx fuel cal deltax g1 d s = .ret o) : o.ccode = 2 := by
  induction fuel generalizing cal deltax g1 d s with
  | zero => rw [lineSearch] at h; cases h
  | succ fuel ih =>
    rw [lineSearch] at h
    by_cases hd0 : 0 < d
    · rw [if_pos hd0] at h
      simp only at h
      by_cases hg : P.norm (calcfg fun i => s.x i - s.hs * dx i).2 < P.tolg
      · rw [if_pos hg] at h; cases h; rfl
      rw [if_neg hg] at h
      exact ih h
    · rw [if_neg hd0] at h
      cases h

theorem ralgLoop_turn {P : RalgPar K n} (hE : Euclidean P) (hP : Positive P) (calcfg : (Fin n → K) → K × (Fin n → K))
    (k : ℕ) (s : RalgSt K n) (hI : LoopInv P calcfg s) : (ralgLoop P calcfg k s).Turn P calcfg := by
  induction k generalizing s with
  | zero =>
    rw [ralgLoop]
    exact ⟨hI.step.steps, fun h => by simp [RalgSt.out] at h⟩
  | succ k ih =>
    rw [ralgLoop]
    simp only
    have hg0 : s.g0 ≠ 0 := by
      intro h
      apply hI.big
      rw [h, hE.norm_zero]
      exact hP.tolg
    have hpos := direction_pos hE hI.reg hg0
    set dx := matVecF s.B (P.normalize (matTVec s.B s.g0)) with hdx
    have hline := lineSearch_steps hP calcfg dx (P.norm dx) s.x s.B s.g0 501 0 0 (matTVec s.B s.g0) 1
      { s with vf := s.vf.set (P.nsims - 1) s.fr } ⟨hI.step.hs, hI.step.last, hI.step.steps⟩ rfl rfl rfl
      (fun _ => by rw [← hI.grad]; exact hpos) (fun h => absurd ⟨one_pos, by omega⟩ h)
      ⟨0, le_refl _, fun i => by simp, by simp⟩
    have hevals : ∀ s' g' dl c, lineSearch P calcfg dx (P.norm dx) 501 0 0 (matTVec s.B s.g0) 1
        { s with vf := s.vf.set (P.nsims - 1) s.fr } = .done s' g' dl c → ∀ e ∈ s.evals, e ∈ s'.evals :=
      fun s' g' dl c h => lineSearch_evals P calcfg dx (P.norm dx) 501 0 0 (matTVec s.B s.g0) 1
        { s with vf := s.vf.set (P.nsims - 1) s.fr } h
    have hcode : ∀ o, lineSearch P calcfg dx (P.norm dx) 501 0 0 (matTVec s.B s.g0) 1
        { s with vf := s.vf.set (P.nsims - 1) s.fr } = .ret o → o.ccode = 2 :=
      fun o h => lineSearch_code h
    generalize lineSearch P calcfg dx (P.norm dx) 501 0 0 (matTVec s.B s.g0) 1
      { s with vf := s.vf.set (P.nsims - 1) s.fr } = L at hline hevals hcode ⊢
    cases L with
    | ret o =>
      refine ⟨hline, fun h => ?_⟩
      have h3 : o.ccode = 3 := h
      rw [hcode o rfl] at h3
      omega
    | done s1 g1 deltax cal =>
      obtain ⟨h1, h2, h3, h4, h5, h6, t, t0, t1, t2⟩ := hline
      simp only
      by_cases c5 : 500 < cal
      · rw [if_pos c5]
        exact ⟨h1.steps, fun h => by simp [RalgSt.out] at h⟩
      rw [if_neg c5]
      have h7 : dotF dx g1 ≤ 0 := h6.resolve_left c5
      have hp : s.x ∈ s1.evals := hevals _ _ _ _ rfl s.x (List.mem_of_getLast? hI.step.last)
      have key : ∀ s2 : RalgSt K n, 0 < s2.hs → s2.x = s1.x → s2.evals = s1.evals → s2.B = s1.B → s2.g0 = s1.g0 →
          RalgOut.Turn P calcfg
            (if deltax < P.tolx then s2.out 3
            else
              if (if 1 < |s2.fr| then
                  ((npRoll s2.vf).set 0 |s2.fr - (npRoll s2.vf).headD 0|).sum / |s2.fr|
                else ((npRoll s2.vf).set 0 |s2.fr - (npRoll s2.vf).headD 0|).sum) < P.tolf then
                RalgSt.out { s2 with
                  B := fun i j => s2.B i j + (1 / P.alpha - 1) *
                    (matVecF s2.B (P.normalize (matTVec s2.B fun i => g1 i - s2.g0 i)) i *
                      P.normalize (matTVec s2.B fun i => g1 i - s2.g0 i) j)
                  g0 := g1
                  vf := (npRoll s2.vf).set 0 |s2.fr - (npRoll s2.vf).headD 0| } 1
              else ralgLoop P calcfg k { s2 with
                  B := fun i j => s2.B i j + (1 / P.alpha - 1) *
                    (matVecF s2.B (P.normalize (matTVec s2.B fun i => g1 i - s2.g0 i)) i *
                      P.normalize (matTVec s2.B fun i => g1 i - s2.g0 i) j)
                  g0 := g1
                  vf := (npRoll s2.vf).set 0 |s2.fr - (npRoll s2.vf).headD 0|
                  nit := s2.nit + 1 }) := by
        intro s2 k1 k2 k3 k4 k5
        have hst : AgainstGradient calcfg s2.evals := by rw [k3]; exact h1.steps
        split_ifs with c3 cf cf
        · refine ⟨hst, fun _ => ⟨s.x, by change _ ∈ s2.evals; rw [k3]; exact hp, s1.x, ?_, dx, t, t0, t1, ?_, ?_, ?_⟩⟩
          · change s2.evals.getLast? = _; rw [k3]; exact h1.last
          · rw [← t2]; exact c3
          · rw [← hI.grad]; exact hpos
          · rw [← h4]; exact h7
        all_goals first
          | exact ⟨hst, fun h => by simp [RalgSt.out] at h⟩
          | skip
        all_goals
          refine ih _ ⟨⟨k1, ?_, hst⟩, ?_, h5, ?_⟩
          · change s2.evals.getLast? = some s2.x
            rw [k3, k2]; exact h1.last
          · change g1 = (calcfg s2.x).2
            rw [k2]; exact h4
          · have hB2 : NonSing s2.B := by rw [k4, h2]; exact hI.reg
            refine dilation_nonsing hB2 (hE.unit_sq ?_) hP.alpha
            intro h0
            have e := hB2 _ h0
            have e1 : g1 = s.g0 := by
              funext i
              have := congrFun e i
              rw [k5, h3] at this
              simpa [sub_eq_zero] using this
            rw [e1] at h7
            exact absurd hpos (not_lt.2 h7)
      by_cases c1 : cal = 1
      · simp only [if_pos c1]
        exact key { s1 with hs := s1.hs * P.q1 } (mul_pos h1.hs hP.q1) rfl rfl rfl rfl
      · simp only [if_neg c1]
        exact key s1 h1.hs rfl rfl rfl rfl

theorem ident_nonsing : NonSing (fun i j : Fin n => if i = j then (1 : K) else 0) := by
  intro g h
  funext i
  have := congrFun h i
  simpa [matTVec] using this

theorem ralgb5_turn {P : RalgPar K n} (hE : Euclidean P) (hP : Positive P) (big : K)
    (calcfg : (Fin n → K) → K × (Fin n → K)) (x0 : Fin n → K) : (ralgb5 P big calcfg x0).Turn P calcfg := by
  have h1 : AgainstGradient calcfg [x0] := by
    intro l1 l2 p q e
    have := congrArg List.length e
    simp at this
    omega
  rw [ralgb5]
  split_ifs with h
  · exact ⟨h1, fun h => by simp [RalgSt.out] at h⟩
  · exact ralgLoop_turn hE hP calcfg _ _ ⟨⟨hP.h0, rfl, h1⟩, rfl, h, ident_nonsing⟩

/-- C109: for any objective every point evaluated by `ralgb5` after the first is reached from the one before it by a
step against the subgradient returned there. -/
theorem C109_steps {P : RalgPar K n} (hE : Euclidean P) (hP : Positive P) (big : K)
    (calcfg : (Fin n → K) → K × (Fin n → K)) (x0 : Fin n → K) :
    AgainstGradient calcfg (ralgb5 P big calcfg x0).evals :=
  (ralgb5_turn hE hP big calcfg x0).1

/-- The default parameters, with the Euclidean norm of numpy over the real numbers,
/repo/intvalpy/kernel/ralgb5.py:3. -/
noncomputable def defaultPar (n : ℕ) : RalgPar ℝ n where
  tolx := 1 / 10 ^ 12
  tolg := 1 / 10 ^ 12
  tolf := 1 / 10 ^ 12
  maxiter := 2000
  alpha := 23 / 10
  nsims := 30
  h0 := 1
  nh := 3
  q1 := 9 / 10
  q2 := 11 / 10
  norm v := Real.sqrt (∑ i, v i * v i)
  normalize v := fun i => v i / Real.sqrt (∑ i, v i * v i)

theorem defaultPar_euclidean (n : ℕ) : Euclidean (defaultPar n) where
  nonneg v := Real.sqrt_nonneg _
  sq v := Real.mul_self_sqrt (Finset.sum_nonneg fun i _ => mul_self_nonneg (v i))
  unit v _ i := rfl

theorem defaultPar_positive (n : ℕ) : Positive (defaultPar n) := by
  constructor <;> simp only [defaultPar] <;> norm_num

theorem demoPar_euclidean : Euclidean demoPar where
  nonneg v := abs_nonneg _
  sq v := by rw [Fin.sum_univ_one]; exact abs_mul_abs_self _
  unit v hv i := by
    have h0 : v 0 ≠ 0 := fun h => hv (funext fun i => by rw [Fin.eq_zero i]; exact h)
    change npSign (v 0) = v i / |v 0|
    rw [Fin.eq_zero i, npSign]
    rcases lt_or_gt_of_ne h0 with h | h
    · rw [if_neg (not_lt.2 h.le), if_pos h, abs_of_neg h]; field_simp
    · rw [if_pos h, abs_of_pos h]; field_simp

theorem demoPar_positive : Positive demoPar := by
  constructor <;> simp only [demoPar] <;> norm_num

/-- The hypotheses of `C109_steps` hold for the default parameters; a run with three steps. -/
example : Euclidean (defaultPar 2) ∧ Positive (defaultPar 2) ∧
    ((ralgb5 demoPar 1000000 (fun x => (|x 0 - 5 / 2|, fun _ => npSign (x 0 - 5 / 2))) (fun _ => 0)).evals.map
      fun x => x 0).take 5 = [0, 1, 21 / 10, 16 / 5, 53 / 20] :=
  ⟨defaultPar_euclidean 2, defaultPar_positive 2, by decide +kernel⟩

/-- With `tolg = 0` the zero subgradient is normalised and the outcome depends on the quotient. -/
example : (ralgb5 { demoPar with tolg := 0 } 1000000 (fun _ => (0, fun _ => 0)) (fun _ => 0)).evals ≠
    (ralgb5 { demoPar with tolg := 0, normalize := fun _ _ => 1 } 1000000 (fun _ => (0, fun _ => 0))
      (fun _ => 0)).evals := by decide +kernel

/-- The same parameters with another value of `v / np.linalg.norm(v)` where the length is zero. -/
def RalgPar.withUnit (P : RalgPar K n) (u : (Fin n → K) → (Fin n → K)) : RalgPar K n := { P with normalize := u }

theorem lineSearch_withUnit (P : RalgPar K n) (u : (Fin n → K) → (Fin n → K)) (calcfg : (Fin n → K) → K × (Fin n → K))
    (dx : Fin n → K) (normdx : K) (fuel cal : ℕ) (deltax : K) (g1 : Fin n → K) (d : K) (s : RalgSt K n) :
    lineSearch (P.withUnit u) calcfg dx normdx fuel cal deltax g1 d s =
      lineSearch P calcfg dx normdx fuel cal deltax g1 d s := by
  induction fuel generalizing cal deltax g1 d s with
  | zero => rw [lineSearch, lineSearch]
  | succ fuel ih =>
    rw [lineSearch, lineSearch]
    simp only [ih]
    rfl

theorem ralgLoop_withUnit {P : RalgPar K n} (hE : Euclidean P) (hP : Positive P) (u : (Fin n → K) → (Fin n → K))
    (hu : ∀ v, v ≠ 0 → u v = P.normalize v) (calcfg : (Fin n → K) → K × (Fin n → K))
    (k : ℕ) (s : RalgSt K n) (hI : LoopInv P calcfg s) :
    ralgLoop (P.withUnit u) calcfg k s = ralgLoop P calcfg k s := by
  induction k generalizing s with
  | zero => rw [ralgLoop, ralgLoop]
  | succ k ih =>
    rw [ralgLoop, ralgLoop]
    simp only
    have hg0 : s.g0 ≠ 0 := by
      intro h
      apply hI.big
      rw [h, hE.norm_zero]
      exact hP.tolg
    have hpos := direction_pos hE hI.reg hg0
    have hBg : matTVec s.B s.g0 ≠ 0 := fun h => hg0 (hI.reg _ h)
    have e1 : (P.withUnit u).normalize (matTVec s.B s.g0) = P.normalize (matTVec s.B s.g0) := hu _ hBg
    rw [e1, lineSearch_withUnit]
    set dx := matVecF s.B (P.normalize (matTVec s.B s.g0)) with hdx
    have hline := lineSearch_steps hP calcfg dx (P.norm dx) s.x s.B s.g0 501 0 0 (matTVec s.B s.g0) 1
      { s with vf := s.vf.set (P.nsims - 1) s.fr } ⟨hI.step.hs, hI.step.last, hI.step.steps⟩ rfl rfl rfl
      (fun _ => by rw [← hI.grad]; exact hpos) (fun h => absurd ⟨one_pos, by omega⟩ h)
      ⟨0, le_refl _, fun i => by simp, by simp⟩
    have e2 : (P.withUnit u).norm = P.norm := rfl
    have e3 : (P.withUnit u).nsims = P.nsims := rfl
    rw [e2, e3]
    generalize lineSearch P calcfg dx (P.norm dx) 501 0 0 (matTVec s.B s.g0) 1
      { s with vf := s.vf.set (P.nsims - 1) s.fr } = L at hline ⊢
    cases L with
    | ret o => rfl
    | done s1 g1 deltax cal =>
      obtain ⟨h1, h2, h3, h4, h5, h6, _⟩ := hline
      simp only
      by_cases c5 : 500 < cal
      · rw [if_pos c5, if_pos c5]
      rw [if_neg c5, if_neg c5]
      have h7 : dotF dx g1 ≤ 0 := h6.resolve_left c5
      have hdg : (matTVec s1.B fun i => g1 i - s1.g0 i) ≠ 0 := by
        intro h0
        rw [h2, h3] at h0
        have e := hI.reg _ h0
        have e1 : g1 = s.g0 := by
          funext i
          have := congrFun e i
          simpa [sub_eq_zero] using this
        rw [e1] at h7
        exact absurd hpos (not_lt.2 h7)
      have e4 : (P.withUnit u).normalize (matTVec s1.B fun i => g1 i - s1.g0 i) =
          P.normalize (matTVec s1.B fun i => g1 i - s1.g0 i) := hu _ hdg
      have hnext : ∀ hs, 0 < hs → ∀ vf nit, LoopInv P calcfg { s1 with
          hs := hs
          B := fun i j => s1.B i j + (1 / P.alpha - 1) *
            (matVecF s1.B (P.normalize (matTVec s1.B fun i => g1 i - s1.g0 i)) i *
              P.normalize (matTVec s1.B fun i => g1 i - s1.g0 i) j)
          g0 := g1
          vf := vf
          nit := nit } := by
        intro hs hhs vf nit
        refine ⟨⟨hhs, h1.last, h1.steps⟩, h4, h5, ?_⟩
        refine dilation_nonsing ?_ (hE.unit_sq hdg) hP.alpha
        rw [h2]; exact hI.reg
      by_cases c1 : cal = 1
      · simp only [if_pos c1]
        rw [e4]
        have := ih _ (hnext (s1.hs * P.q1) (mul_pos h1.hs hP.q1)
          ((npRoll s1.vf).set 0 |s1.fr - (npRoll s1.vf).headD 0|) (s1.nit + 1))
        rw [show (P.withUnit u).alpha = P.alpha from rfl, show (P.withUnit u).q1 = P.q1 from rfl, this]
        rfl
      · simp only [if_neg c1]
        rw [e4]
        have := ih _ (hnext s1.hs h1.hs
          ((npRoll s1.vf).set 0 |s1.fr - (npRoll s1.vf).headD 0|) (s1.nit + 1))
        rw [show (P.withUnit u).alpha = P.alpha from rfl, this]
        rfl

/-- C109: no vector of length zero is ever normalised: the outcome is the same for every value given to the quotient
`0 / 0`. -/
theorem C109_no_zero_division {P : RalgPar K n} (hE : Euclidean P) (hP : Positive P) (u : (Fin n → K) → (Fin n → K))
    (hu : ∀ v, v ≠ 0 → u v = P.normalize v) (big : K) (calcfg : (Fin n → K) → K × (Fin n → K)) (x0 : Fin n → K) :
    ralgb5 (P.withUnit u) big calcfg x0 = ralgb5 P big calcfg x0 := by
  have h1 : AgainstGradient calcfg [x0] := by
    intro l1 l2 p q e
    have := congrArg List.length e
    simp at this
    omega
  rw [ralgb5, ralgb5]
  by_cases h : P.norm (calcfg x0).2 < P.tolg
  · have h' : (P.withUnit u).norm (calcfg x0).2 < (P.withUnit u).tolg := h
    rw [if_pos h, if_pos h']
    rfl
  · have h' : ¬ (P.withUnit u).norm (calcfg x0).2 < (P.withUnit u).tolg := h
    rw [if_neg h, if_neg h']
    exact ralgLoop_withUnit hE hP u hu calcfg _ _ ⟨⟨hP.h0, rfl, h1⟩, rfl, h, ident_nonsing⟩

/-! ## C110: what the exit code 3 says about a convex function -/

/-- C110: after the exit code 3 every better point on the line of the last search lies strictly between its two ends,
which are evaluated points less than `tolx` apart. -/
theorem C110_line {P : RalgPar K n} (hE : Euclidean P) (hP : Positive P) (big : K)
    (calcfg : (Fin n → K) → K × (Fin n → K)) (hf : SubgradOracle calcfg) (x0 : Fin n → K)
    (hc : (ralgb5 P big calcfg x0).ccode = 3) :
    ∃ p ∈ (ralgb5 P big calcfg x0).evals, ∃ q, (ralgb5 P big calcfg x0).evals.getLast? = some q ∧
      P.norm (fun i => p i - q i) < P.tolx ∧ p ≠ q ∧
      ∀ r : K, (calcfg fun i => p i + r * (q i - p i)).1 < (ralgb5 P big calcfg x0).fr → 0 < r ∧ r < 1 := by
  obtain ⟨p, hp, q, hq, dx, t, t0, t1, t2, t3, t4⟩ := (ralgb5_turn hE hP big calcfg x0).2 hc
  have hb := (C35_ralgb5 P big calcfg x0).1.2.2.1
  have hfp := hb p hp
  have hfq := hb q (List.mem_of_getLast? hq)
  have ht : 0 < t := by
    rcases t0.lt_or_eq with h | h
    · exact h
    · exfalso
      have : q = p := by funext i; rw [t1 i, ← h]; ring
      rw [this] at t4
      exact absurd t3 (not_lt.2 t4)
  refine ⟨p, hp, q, hq, ?_, fun h => ?_, ?_⟩
  · have e : P.norm (fun i => p i - q i) = t * P.norm dx := by
      have h1 := hE.sq (fun i => p i - q i)
      have h2 := hE.sq dx
      have h3 : ∑ i, (p i - q i) * (p i - q i) = t * t * ∑ i, dx i * dx i := by
        rw [Finset.mul_sum]
        exact Finset.sum_congr rfl fun i _ => by rw [t1 i]; ring
      rw [h3, ← h2] at h1
      have h4 : P.norm (fun i => p i - q i) * P.norm (fun i => p i - q i) =
          (t * P.norm dx) * (t * P.norm dx) := by rw [h1]; ring
      exact (mul_self_inj (hE.nonneg _) (mul_nonneg ht.le (hE.nonneg dx))).1 h4
    rw [e]; exact t2
  · rw [← h] at t4
    exact absurd t3 (not_lt.2 t4)
  · intro r hr
    have a1 := hf p fun i => p i + r * (q i - p i)
    have a2 := hf q fun i => p i + r * (q i - p i)
    have e1 : ∑ i, (calcfg p).2 i * (p i + r * (q i - p i) - p i) = -(r * t) * dotF dx (calcfg p).2 := by
      rw [dotF, Finset.mul_sum]
      exact Finset.sum_congr rfl fun i _ => by rw [t1 i]; ring
    have e2 : ∑ i, (calcfg q).2 i * (p i + r * (q i - p i) - q i) = (1 - r) * t * dotF dx (calcfg q).2 := by
      rw [dotF, Finset.mul_sum]
      exact Finset.sum_congr rfl fun i _ => by rw [t1 i]; ring
    rw [e1] at a1
    rw [e2] at a2
    constructor
    · by_contra h
      have : 0 ≤ -(r * t) * dotF dx (calcfg p).2 := by
        have : r * t ≤ 0 := mul_nonpos_of_nonpos_of_nonneg (not_lt.1 h) ht.le
        exact mul_nonneg (by linarith) t3.le
      linarith
    · by_contra h
      have : 0 ≤ (1 - r) * t * dotF dx (calcfg q).2 := by
        have : (1 - r) * t ≤ 0 := mul_nonpos_of_nonpos_of_nonneg (by linarith [not_lt.1 h]) ht.le
        exact mul_nonneg_of_nonpos_of_nonpos this t4
      linarith

theorem Euclidean.norm_one {P : RalgPar K 1} (hE : Euclidean P) (v : Fin 1 → K) : P.norm v = |v 0| := by
  have h := hE.sq v
  rw [Fin.sum_univ_one, ← abs_mul_abs_self (v 0)] at h
  exact (mul_self_inj (hE.nonneg v) (abs_nonneg _)).1 h

/-- C110: in one variable the exit code 3 means that every point better than the returned one is within `tolx` of the
last evaluated point, and that the returned value exceeds the least value by at most the product of `tolx` and the
subgradient there. -/
theorem C110_one_variable {P : RalgPar K 1} (hE : Euclidean P) (hP : Positive P) (big : K)
    (calcfg : (Fin 1 → K) → K × (Fin 1 → K)) (hf : SubgradOracle calcfg) (x0 : Fin 1 → K)
    (hc : (ralgb5 P big calcfg x0).ccode = 3) :
    ∃ q, (ralgb5 P big calcfg x0).evals.getLast? = some q ∧
      ∀ y, (calcfg y).1 < (ralgb5 P big calcfg x0).fr → |y 0 - q 0| < P.tolx ∧
        (ralgb5 P big calcfg x0).fr ≤ (calcfg y).1 + |(calcfg q).2 0| * P.tolx := by
  obtain ⟨p, hp, q, hq, hn, hpq, hl⟩ := C110_line hE hP big calcfg hf x0 hc
  refine ⟨q, hq, fun y hy => ?_⟩
  have hne : q 0 - p 0 ≠ 0 := by
    intro h0
    exact hpq (funext fun i => by rw [Fin.eq_zero i]; linarith)
  have e : y = fun i => p i + (y 0 - p 0) / (q 0 - p 0) * (q i - p i) := by
    funext i
    rw [Fin.eq_zero i]
    field_simp
    ring
  have h := hl ((y 0 - p 0) / (q 0 - p 0)) (by rw [← e]; exact hy)
  have hd : |y 0 - q 0| < P.tolx := by
    rw [hE.norm_one] at hn
    have e2 : y 0 - q 0 = (1 - (y 0 - p 0) / (q 0 - p 0)) * (p 0 - q 0) := by
      field_simp
      ring
    rw [e2, abs_mul, abs_of_pos (by linarith [h.2])]
    have := abs_nonneg (p 0 - q 0)
    nlinarith [h.1]
  refine ⟨hd, ?_⟩
  have hb := (C35_ralgb5 P big calcfg x0).1.2.2.1 q (List.mem_of_getLast? hq)
  have a := hf q y
  rw [Fin.sum_univ_one] at a
  have b := neg_abs_le ((calcfg q).2 0 * (y 0 - q 0))
  rw [abs_mul] at b
  have c := mul_le_mul_of_nonneg_left hd.le (abs_nonneg ((calcfg q).2 0))
  linarith

/-- A run that ends with the code 3: `|x - 1/3|` with steps halved. -/
example : SubgradOracle (fun x : Fin 1 → ℚ => (|x 0 - 1 / 3|, fun _ => npSign (x 0 - 1 / 3))) ∧
    (ralgb5 { demoPar with tolf := 0, maxiter := 30 } 1000000
      (fun x => (|x 0 - 1 / 3|, fun _ => npSign (x 0 - 1 / 3))) (fun _ => 0)).ccode = 3 := by
  refine ⟨fun x y => ?_, by decide +kernel⟩
  simp only [Fin.sum_univ_one, npSign]
  have h1 := le_abs_self (y 0 - 1 / 3)
  have h2 := neg_le_abs (y 0 - 1 / 3)
  split_ifs with h h'
  · rw [abs_of_pos h]; linarith
  · rw [abs_of_neg h']; linarith
  · have : x 0 - 1 / 3 = 0 := le_antisymm (not_lt.1 h) (not_lt.1 h')
    rw [this, abs_zero]
    linarith [abs_nonneg (y 0 - 1 / 3)]

end IntvalPy
