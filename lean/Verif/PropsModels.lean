import Verif.ModelModels
import Verif.PropsRecFun
import Verif.PropsRalgb
import Mathlib.Tactic.FinCases
import Mathlib.Data.Fin.VecNotation

/-!
# Interval regression: weights, objective and subgradients of WILS (C55, C75, C76, C77)
-/

set_option autoImplicit false
set_option linter.unusedSectionVars false

namespace IntvalPy
open Spec

variable {K : Type*} [Field K] [LinearOrder K] [IsStrictOrderedRing K] {m n : ℕ}

/-! ## C55: the weights of the caller -/

/-- C55 as stated: `fit` leaves the weights of the caller as they were, and a second `fit` with the same arguments
minimises the same function. -/
def C55_statement (R : Rnd K) : Prop :=
  ∀ (m n : ℕ) (alpha beta : K) (X : Fin m → Fin n → Iv K) (y : Fin m → Iv K) (w w' w'' : List K) (F : RecFun)
    (norm : NormArg) (con : Option (Rows K n × K)) (f f' : (Fin n → K) → Except Err (K × (Fin n → K))),
    wilsProblem R id alpha beta X y (some w) (some F) norm con = .ok (f, w') →
    wilsProblem R id alpha beta X y (some w') (some F) norm con = .ok (f', w'') → w' = w ∧ f' = f

/-- The value of the function `fit` minimises, and the weights left behind. -/
def wilsAt (alpha beta : ℚ) (w : List ℚ) : Option (ℚ × List ℚ) :=
  match wilsProblem (Rnd.exact : Rnd ℚ) id alpha beta (fun _ _ => ⟨.classical, 1, 2⟩ : Fin 2 → Fin 1 → Iv ℚ)
    (fun _ => ⟨.classical, 1, 4⟩) (some w) (some .tol) .inf none with
  | .error _ => none
  | .ok p =>
      match p.1 fun _ => 0 with
      | .error _ => none
      | .ok v => some (v.1, p.2)

/-- C55 is false: with smoothing `alpha = 1/2` the weights `(1, 1)` become `(1/2, 3/4)` in the array of the caller, and a
second `fit` minimises another function. -/
theorem C55_weights_false : ¬ C55_statement (Rnd.exact : Rnd ℚ) ∧
    wilsAt (1 / 2) 1 [1, 1] = some (3 / 4, [1 / 2, 3 / 4]) ∧
    wilsAt (1 / 2) 1 [1 / 2, 3 / 4] = some (1 / 2, [1 / 4, 1 / 2]) := by
  have h1 : wilsAt (1 / 2) 1 [1, 1] = some (3 / 4, [1 / 2, 3 / 4]) := by decide +kernel
  have h2 : wilsAt (1 / 2) 1 [1 / 2, 3 / 4] = some (1 / 2, [1 / 4, 1 / 2]) := by decide +kernel
  refine ⟨fun h => ?_, h1, h2⟩
  unfold wilsAt at h1 h2
  split at h1
  · cases h1
  · next p hp =>
    split at h1
    · cases h1
    · next v hv =>
      split at h2
      · cases h2
      · next p' hp' =>
        have e : p.2 = [1 / 2, 3 / 4] := by
          have := congrArg (Option.map Prod.snd) h1
          simpa using this
        rw [← e] at hp'
        have := (h 2 1 _ _ _ _ _ p.2 p'.2 _ _ _ p.1 p'.1 hp hp').1
        rw [e] at this
        norm_num at this

theorem Rnd.nr_zero (R : Rnd K) : R.nr 0 = 0 :=
  le_antisymm ((R.nr_le_up 0).trans R.up_zero.le) (R.dn_zero.ge.trans (R.dn_le_nr 0))

/-- Without smoothing and scaling every representable weight is stored again as it is. -/
theorem smooth_id (R : Rnd K) (h1 : R.nr 1 = 1) (w : List K) (hw : ∀ t ∈ w, R.nr t = t) :
    smooth R id 0 1 w = w := by
  have from_id : ∀ (w : List K), (∀ t ∈ w, R.nr t = t) → ∀ prev, smoothFrom R id 0 1 prev w = w := by
    intro w
    induction w with
    | nil => intro _ _; rfl
    | cons t ts ih =>
        intro hw prev
        have ht := hw t (by simp)
        simp only [smoothFrom, sub_zero, h1, mul_one, zero_mul, one_mul, ht, R.nr_zero, add_zero, id_eq]
        rw [ih (fun s hs => hw s (by simp [hs]))]
  cases w with
  | nil => rfl
  | cons t ts =>
      have ht := hw t (by simp)
      simp only [smooth, sub_zero, h1, mul_one, one_mul, ht, id_eq]
      rw [from_id ts (fun s hs => hw s (by simp [hs]))]

/-- C55 (partial): with the default `alpha = 0`, `beta = 1` the weights are unchanged, and a second `fit` minimises the
same function.  Missing for the full statement: other smoothing parameters, where it is false (`C55_weights_false`,
`C55_unchanged_iff`). -/
theorem C55_default_partial (R : Rnd K) (h1 : R.nr 1 = 1) (X : Fin m → Fin n → Iv K) (y : Fin m → Iv K)
    (w w' w'' : List K) (hw : ∀ t ∈ w, R.nr t = t) (F : RecFun) (norm : NormArg) (con : Option (Rows K n × K))
    (f f' : (Fin n → K) → Except Err (K × (Fin n → K)))
    (h : wilsProblem R id 0 1 X y (some w) (some F) norm con = .ok (f, w'))
    (h' : wilsProblem R id 0 1 X y (some w') (some F) norm con = .ok (f', w'')) : w' = w ∧ f' = f := by
  have key : w' = w := by
    unfold wilsProblem at h
    split at h
    · cases h
    · next v hv =>
      unfold fitWeights at hv
      dsimp only at hv
      split_ifs at hv with hN
      injection hv with hv
      rw [smooth_id R h1 _ (fun t ht => hw t (List.mem_of_mem_take ht)), List.take_append_drop] at hv
      split_ifs at h
      · injection h with h
        rw [hv]
        exact (congrArg Prod.snd h).symm
      · injection h with h
        rw [hv]
        exact (congrArg Prod.snd h).symm
  rw [key, h] at h'
  injection h' with h'
  exact ⟨key, (congrArg Prod.fst h').symm⟩

/-- C55: leaving the weights out is the same as giving an array of ones, which is then smoothed like any other: in exact
arithmetic the first weight is `beta (1 - alpha)` and each next one `beta ((1 - alpha) + alpha w)` with the weight `w`
before it. -/
theorem C55_default_ones (R : Rnd K) (alpha beta : K) (N : ℕ) :
    fitWeights R id alpha beta N none = fitWeights R id alpha beta N (some (List.replicate N 1)) ∧
    ∀ ws, fitWeights (Rnd.exact : Rnd K) id alpha beta N none = .ok ws → ws.length = N ∧
      ws[0]? = some (beta * (1 - alpha)) ∧
      ∀ k u v, ws[k]? = some u → ws[k + 1]? = some v → v = beta * ((1 - alpha) + alpha * u) := by
  constructor
  · unfold fitWeights
    by_cases hN : N = 0
    · simp [hN]
    · simp [hN]
  · intro ws h
    unfold fitWeights at h
    dsimp only at h
    split_ifs at h with hN
    injection h with h
    subst h
    obtain ⟨M, rfl⟩ := Nat.exists_eq_succ_of_ne_zero hN
    rw [List.replicate_succ]
    simp only [smooth, Rnd.exact_nr, id_eq, mul_one]
    have aux : ∀ (M : ℕ) (p : K), (smoothFrom (Rnd.exact : Rnd K) id alpha beta p (List.replicate M 1)).length = M ∧
        ∀ k u v, (p :: smoothFrom (Rnd.exact : Rnd K) id alpha beta p (List.replicate M 1))[k]? = some u →
          (p :: smoothFrom (Rnd.exact : Rnd K) id alpha beta p (List.replicate M 1))[k + 1]? = some v →
          v = beta * ((1 - alpha) + alpha * u) := by
      intro M
      induction M with
      | zero => intro p; exact ⟨rfl, fun k u v _ hv => by simp [smoothFrom] at hv⟩
      | succ M ih =>
          intro p
          rw [List.replicate_succ]
          simp only [smoothFrom, Rnd.exact_nr, id_eq, one_mul]
          obtain ⟨l, hn⟩ := ih (beta * (1 - alpha + alpha * p))
          refine ⟨by rw [List.length_cons, l], fun k u v hu hv => ?_⟩
          cases k with
          | zero =>
              simp only [List.getElem?_cons_zero, Option.some.injEq, List.getElem?_cons_succ, zero_add] at hu hv
              rw [← hu, ← hv]
          | succ k => exact hn k u v (by simpa using hu) (by simpa using hv)
    obtain ⟨l, hn⟩ := aux M (beta * (1 - alpha))
    exact ⟨by rw [List.length_cons, l], by simp, hn⟩

/-- With `alpha = 1/2` the ones become `1/2, 3/4, 7/8`. -/
example : fitWeights (Rnd.exact : Rnd ℚ) id (1 / 2) 1 3 none = .ok [1 / 2, 3 / 4, 7 / 8] := by decide +kernel

/-- C55, exactly when: in exact arithmetic, with a positive first weight and at least two rows, the weights are
unchanged only for `alpha = 0` and `beta = 1`. -/
theorem C55_unchanged_iff (alpha beta u v : K) (w : List K) (hu : 0 < u) :
    smooth (Rnd.exact : Rnd K) id alpha beta (u :: v :: w) = u :: v :: w ↔ alpha = 0 ∧ beta = 1 := by
  constructor
  · intro h
    simp only [smooth, smoothFrom, Rnd.exact_nr, id_eq, List.cons.injEq] at h
    obtain ⟨h1, h2, -⟩ := h
    rw [h1] at h2
    have hb : beta * (1 - alpha) = 1 := by
      have : u * (beta * (1 - alpha)) = u * 1 := by linarith
      exact mul_left_cancel₀ hu.ne' this
    have h3 : beta * (alpha * u) = 0 := by
      have : beta * (v * (1 - alpha) + alpha * u) = v * (beta * (1 - alpha)) + beta * (alpha * u) := by ring
      rw [this, hb] at h2
      linarith
    have hb0 : beta ≠ 0 := by
      rintro rfl
      rw [zero_mul] at hb
      exact zero_ne_one hb
    have ha : alpha = 0 := by
      rcases mul_eq_zero.1 h3 with h | h
      · exact absurd h hb0
      · rcases mul_eq_zero.1 h with h | h
        · exact h
        · exact absurd h hu.ne'
    refine ⟨ha, ?_⟩
    rw [ha, sub_zero, mul_one] at hb
    exact hb
  · rintro ⟨rfl, rfl⟩
    exact smooth_id Rnd.exact rfl _ fun _ _ => rfl

/-! ## C77: integer weights -/

/-- C77 as stated: weights given as an array of integers have the same effect as the same numbers given as floats. -/
def C77_statement : Prop :=
  ∀ (alpha beta : ℚ) (N : ℕ) (w : List ℚ), (∀ t ∈ w, ∃ z : ℤ, t = z) →
    fitWeights (Rnd.exact : Rnd ℚ) intStore alpha beta N (some w) = fitWeights Rnd.exact id alpha beta N (some w)

/-- C77 is false: with `alpha = 1/2` the integer weights `(1, 1, 1)` all become 0, so that the objective is 0 everywhere;
as floats they become `(1/2, 3/4, 7/8)`. -/
theorem C77_integer_weights_false : ¬ C77_statement ∧
    fitWeights (Rnd.exact : Rnd ℚ) intStore (1 / 2) 1 3 (some [1, 1, 1]) = .ok [0, 0, 0] ∧
    fitWeights (Rnd.exact : Rnd ℚ) id (1 / 2) 1 3 (some [1, 1, 1]) = .ok [1 / 2, 3 / 4, 7 / 8] := by
  have h1 : fitWeights (Rnd.exact : Rnd ℚ) intStore (1 / 2) 1 3 (some [1, 1, 1]) = .ok [0, 0, 0] := by decide +kernel
  have h2 : fitWeights (Rnd.exact : Rnd ℚ) id (1 / 2) 1 3 (some [1, 1, 1]) = .ok [1 / 2, 3 / 4, 7 / 8] := by
    decide +kernel
  refine ⟨fun h => ?_, h1, h2⟩
  have := h (1 / 2) 1 3 [1, 1, 1] (by intro t ht; exact ⟨1, by simpa using ht⟩)
  rw [h1, h2] at this
  injection this with this
  norm_num at this

theorem intStore_int (z : ℤ) : intStore (z : ℚ) = z := by
  unfold intStore
  split_ifs <;> simp

/-- C77 (partial): with `alpha = 0` and an integer `beta` integer weights are treated as numbers.  Missing for the full
statement: other parameters, where it is false (`C77_integer_weights_false`). -/
theorem C77_integer_weights_partial (k : ℤ) (N : ℕ) (w : List ℚ) (hw : ∀ t ∈ w, ∃ z : ℤ, t = z) :
    fitWeights (Rnd.exact : Rnd ℚ) intStore 0 (k : ℚ) N (some w) = fitWeights Rnd.exact id 0 (k : ℚ) N (some w) := by
  have from_eq : ∀ (w : List ℚ), (∀ t ∈ w, ∃ z : ℤ, t = z) → ∀ prev,
      smoothFrom (Rnd.exact : Rnd ℚ) intStore 0 (k : ℚ) prev w = smoothFrom Rnd.exact id 0 (k : ℚ) prev w := by
    intro w
    induction w with
    | nil => intro _ _; rfl
    | cons t ts ih =>
        intro hw prev
        obtain ⟨z, hz⟩ := hw t (by simp)
        have e : intStore ((k : ℚ) * (z * 1)) = (k : ℚ) * (z * 1) := by
          have := intStore_int (k * z)
          rw [mul_one]
          exact_mod_cast this
        simp only [smoothFrom, Rnd.exact_nr, id_eq, sub_zero, zero_mul, add_zero, hz, e]
        rw [ih fun s hs => hw s (by simp [hs])]
  have eq : ∀ (w : List ℚ), (∀ t ∈ w, ∃ z : ℤ, t = z) →
      smooth (Rnd.exact : Rnd ℚ) intStore 0 (k : ℚ) w = smooth Rnd.exact id 0 (k : ℚ) w := by
    intro w hw
    cases w with
    | nil => rfl
    | cons t ts =>
        obtain ⟨z, hz⟩ := hw t (by simp)
        have e : intStore ((k : ℚ) * z * 1) = (k : ℚ) * z * 1 := by
          have := intStore_int (k * z)
          rw [mul_one]
          exact_mod_cast this
        simp only [smooth, Rnd.exact_nr, id_eq, sub_zero, hz, e]
        rw [from_eq ts fun s hs => hw s (by simp [hs])]
  unfold fitWeights
  dsimp only
  split_ifs
  · rfl
  · rw [eq _ fun t ht => hw t (List.mem_of_mem_take ht)]

example : fitWeights (Rnd.exact : Rnd ℚ) intStore 0 ((2 : ℤ) : ℚ) 2 (some [1, 3]) = .ok [2, 6] := by decide +kernel

/-- C77: the smoothing of float weights with `0 <= alpha < 1` and `beta > 0` keeps positive weights positive. -/
theorem C77_positive (alpha beta : K) (ha : 0 ≤ alpha) (ha1 : alpha < 1) (hb : 0 < beta) (w : List K)
    (hw : ∀ t ∈ w, 0 < t) : ∀ t ∈ smooth (Rnd.exact : Rnd K) id alpha beta w, 0 < t := by
  have from_pos : ∀ (w : List K), (∀ t ∈ w, 0 < t) → ∀ prev, 0 < prev →
      ∀ t ∈ smoothFrom (Rnd.exact : Rnd K) id alpha beta prev w, 0 < t := by
    intro w
    induction w with
    | nil => intro _ _ _ t ht; cases ht
    | cons s ss ih =>
        intro hw prev hp t ht
        simp only [smoothFrom, Rnd.exact_nr, id_eq] at ht
        have hpos : 0 < beta * (s * (1 - alpha) + alpha * prev) := by
          refine mul_pos hb (add_pos_of_pos_of_nonneg (mul_pos (hw s (by simp)) (by linarith)) ?_)
          exact mul_nonneg ha hp.le
        rcases List.mem_cons.1 ht with rfl | ht
        · exact hpos
        · exact ih (fun t ht => hw t (by simp [ht])) _ hpos t ht
  cases w with
  | nil => intro t ht; cases ht
  | cons s ss =>
      intro t ht
      simp only [smooth, Rnd.exact_nr, id_eq] at ht
      have hpos : 0 < beta * s * (1 - alpha) := mul_pos (mul_pos hb (hw s (by simp))) (by linarith)
      rcases List.mem_cons.1 ht with rfl | ht
      · exact hpos
      · exact from_pos ss (fun t ht => hw t (by simp [ht])) _ hpos t ht

/-! ## C75: the objective -/

/-- With the norm `inf` the pair handed to the optimiser is that of `Tol`, `Uni`, `Uss`. -/
theorem wilsCalcfg_inf (F : RecFun) (d : RecData K m n) (x : Fin n → K) :
    wilsCalcfg F .inf d x = F.calcfg d x := by
  have arr : ∀ f : Fin m → K, wilsResidual F d x = f → wilsCalcfg F .inf d x =
      (npArgmin f).map fun i => (-f i, fun j => -(wilsDiff F d x i j)) := by
    intro f hf
    simp only [wilsCalcfg, wrapNorm, hf]
    cases npArgmin f with
    | error e => rfl
    | ok i => simp [Except.map]
  cases F
  · rw [arr (tolArr d x) rfl, RecFun.calcfg, tolCalcfg]
    cases npArgmin (tolArr d x) with
    | error e => rfl
    | ok i =>
        simp only [Except.map, wilsDiff]
        congr 2
        funext j
        split_ifs <;> rfl
  · rw [arr (uniArr d x) rfl, RecFun.calcfg, uniCalcfg]
    cases npArgmin (uniArr d x) with
    | error e => rfl
    | ok i =>
        simp only [Except.map, wilsDiff]
        congr 2
        funext j
        split_ifs <;> rfl
  · rw [arr (ussArr d x) rfl, RecFun.calcfg, ussCalcfg]
    cases npArgmin (ussArr d x) with
    | error e => rfl
    | ok i => rfl

/-- The constituents of the public functional, in exact arithmetic. -/
def RecFun.constituent (F : RecFun) (row : Fin n → Iv K) (b : Iv K) (w : K) (x : Fin n → K) : Except Err K :=
  match F with
  | .tol => tolConstituent Rnd.exact row b w x
  | .uni => uniConstituent Rnd.exact row b w x
  | .uss => .ok (ussConstituent row b w x)

theorem wilsResidual_constituent (F : RecFun) (hn : 0 < n) (X : Fin m → Fin n → Iv K) (y : Fin m → Iv K) (w : Fin m → K)
    (x : Fin n → K) (hX : ∀ i j, Ordinary (X i j)) (i : Fin m) :
    F.constituent (X i) (y i) (w i) x = .ok (wilsResidual F (recData X y w) x i) := by
  -- a one-row system, whose functional has a single constituent
  have one : ∀ r : K, F.value (fun _ : Fin 1 => X i) (fun _ => y i) (fun _ => w i) x = .ok r →
      F.constituent (X i) (y i) (w i) x = .ok r := by
    intro r hr
    cases F
    · simp only [RecFun.value, tolValue, RecFun.constituent, List.ofFn_succ, List.ofFn_zero, minOver] at hr ⊢
      cases h : tolConstituent Rnd.exact (X i) (y i) (w i) x with
      | error e => rw [h] at hr; cases hr
      | ok v => rw [h] at hr; exact hr
    · simp only [RecFun.value, uniValue, RecFun.constituent, List.ofFn_succ, List.ofFn_zero, minOver] at hr ⊢
      cases h : uniConstituent Rnd.exact (X i) (y i) (w i) x with
      | error e => rw [h] at hr; cases hr
      | ok v => rw [h] at hr; exact hr
    · simp only [RecFun.value, ussValue, RecFun.constituent, List.ofFn_succ, List.ofFn_zero, npAmin, List.foldl_nil] at hr ⊢
      exact hr
  apply one
  cases F
  · rw [RecFun.value, tolValue_eq hn _ _ _ x (fun _ => hX i)]; rfl
  · rw [RecFun.value, uniValue_eq hn _ _ _ x (fun _ => hX i)]; rfl
  · rw [RecFun.value, ussValue_eq]; rfl

/-- C75: in exact arithmetic the function `WILS.fit` minimises is minus the recognizing functional of the training system
for the norm `inf`, and minus the sum of its constituents for the norm `l1`, with the smoothed weights. -/
theorem C75_objective (F : RecFun) (hm : 0 < m) (hn : 0 < n) (alpha beta : K) (X : Fin m → Fin n → Iv K)
    (y : Fin m → Iv K) (hX : ∀ i j, Ordinary (X i j)) (w w' : List K) (hw : w.length = m)
    (f : (Fin n → K) → Except Err (K × (Fin n → K))) (norm : NormArg)
    (h : wilsProblem Rnd.exact id alpha beta X y (some w) (some F) norm none = .ok (f, w')) (x : Fin n → K) :
    w' = smooth Rnd.exact id alpha beta w ∧
    (norm = .inf → ∃ v g, f x = .ok (-v, g) ∧ F.value X y (weightVec w') x = .ok v) ∧
    (norm = .l1 → ∃ c : Fin m → K, (∀ i, F.constituent (X i) (y i) (weightVec w' i) x = .ok (c i)) ∧
      ∃ g, f x = .ok (-∑ i, c i, g)) ∧
    (norm = .other → f x = .error .unboundLocalError) := by
  have hlen : ∀ w : List K, (smooth (Rnd.exact : Rnd K) id alpha beta w).length = w.length := by
    have : ∀ (w : List K) prev, (smoothFrom (Rnd.exact : Rnd K) id alpha beta prev w).length = w.length := by
      intro w
      induction w with
      | nil => intro _; rfl
      | cons t ts ih => intro prev; simp [smoothFrom, ih]
    intro w
    cases w with
    | nil => rfl
    | cons t ts => simp [smooth, this]
  have hfw : fitWeights (Rnd.exact : Rnd K) id alpha beta m (some w) = .ok (smooth Rnd.exact id alpha beta w) := by
    unfold fitWeights
    dsimp only
    rw [if_neg (by omega), ← hw, List.take_length, List.drop_length, List.append_nil]
  unfold wilsProblem at h
  rw [hfw] at h
  dsimp only at h
  rw [if_pos (by rw [hlen, hw])] at h
  injection h with h
  obtain ⟨rfl, rfl⟩ := Prod.mk.inj h
  refine ⟨rfl, ?_, ?_, ?_⟩
  · rintro rfl
    simp only [wilsObjective, wilsCalcfg_inf]
    obtain ⟨v, g, h1, h2⟩ := C33_objective_is_minus_value F hm hn X y
      (weightVec (smooth Rnd.exact id alpha beta w)) x (recData X y (weightVec (smooth Rnd.exact id alpha beta w))).infA
      (recData X y (weightVec (smooth Rnd.exact id alpha beta w))).supA hX
    exact ⟨-v, g, by rw [neg_neg]; exact h1, h2⟩
  · rintro rfl
    exact ⟨_, fun i => wilsResidual_constituent F hn X y _ x hX i, _, rfl⟩
  · rintro rfl
    rfl

/-- What the estimator of `fit` should report: the value of the functional, or the sum of its constituents. -/
def FitValue (F : RecFun) (norm : NormArg) (X : Fin m → Fin n → Iv K) (y : Fin m → Iv K) (w : Fin m → K) (x : Fin n → K)
    (v : K) : Prop :=
  match norm with
  | .inf => F.value X y w x = .ok v
  | .l1 => ∃ c : Fin m → K, (∀ i, F.constituent (X i) (y i) (w i) x = .ok (c i)) ∧ v = ∑ i, c i
  | .other => False

/-- C75: the `fr` of the estimator is the value of the functional (the sum of its constituents for the norm `l1`) at its
`xr`, and at least the value at the initial guess. -/
theorem C75_fit (F : RecFun) (P : RalgPar K n) (big : K) (hm : 0 < m) (hn : 0 < n) (alpha beta : K)
    (X : Fin m → Fin n → Iv K) (y : Fin m → Iv K) (hX : ∀ i j, Ordinary (X i j)) (x0 : Fin n → K) (w w' : List K)
    (hw : w.length = m) (norm : NormArg) (o : RalgOut K n)
    (h : wilsFit Rnd.exact id P big alpha beta X y x0 (some w) (some F) norm none = .ok (o, w')) :
    FitValue F norm X y (weightVec w') o.xr o.fr ∧
      ∀ v0, FitValue F norm X y (weightVec w') x0 v0 → v0 ≤ o.fr := by
  unfold wilsFit at h
  split at h
  · cases h
  · next p hp =>
    split at h
    · cases h
    · next v hv =>
      injection h with h
      obtain ⟨rfl, rfl⟩ := Prod.mk.inj h
      have key := fun x => (C75_objective F hm hn alpha beta X y hX w p.2 hw p.1 norm hp x).2
      obtain ⟨⟨_, q2, _, q4⟩, _⟩ := C35_ralgb5 P big (fun x => orZero (p.1 x)) x0
      have val : ∀ x v, FitValue F norm X y (weightVec p.2) x v ↔ norm ≠ .other ∧ v = -(orZero (p.1 x)).1 := by
        intro x v
        cases norm with
        | inf =>
            obtain ⟨u, g, h1, h2⟩ := (key x).1 rfl
            simp only [FitValue, h1, h2, orZero, neg_neg]
            constructor
            · intro h
              injection h with h
              exact ⟨by simp, h.symm⟩
            · rintro ⟨_, rfl⟩
              rfl
        | l1 =>
            obtain ⟨c, h1, g, h2⟩ := (key x).2.1 rfl
            simp only [FitValue, h2, orZero, neg_neg]
            constructor
            · rintro ⟨c', h3, rfl⟩
              refine ⟨by simp, Finset.sum_congr rfl fun i _ => ?_⟩
              have := h3 i
              rw [h1] at this
              injection this with this
              exact this.symm
            · rintro ⟨_, rfl⟩
              exact ⟨c, h1, rfl⟩
        | other => simp [FitValue]
      have hno : norm ≠ .other := by
        rintro rfl
        rw [(key x0).2.2 rfl] at hv
        cases hv
      constructor
      · rw [val]
        refine ⟨hno, ?_⟩
        simp only
        rw [q2]
      · intro v0 hv0
        rw [val] at hv0
        rw [hv0.2]
        simp only
        linarith

/-- The objective for both norms at one point, with the weights 1 and 2: minus the minimum and minus the sum of the
constituents -1 and -2. -/
example : ((wilsProblem (Rnd.exact : Rnd ℚ) id 0 1 (fun _ _ => ⟨.classical, 1, 2⟩ : Fin 2 → Fin 1 → Iv ℚ)
      (fun _ => ⟨.classical, 1, 4⟩) (some [1, 2]) (some .tol) .inf none).bind fun p => (p.1 fun _ => 0).map (·.1)) = .ok 2 ∧
    ((wilsProblem (Rnd.exact : Rnd ℚ) id 0 1 (fun _ _ => ⟨.classical, 1, 2⟩ : Fin 2 → Fin 1 → Iv ℚ)
      (fun _ => ⟨.classical, 1, 4⟩) (some [1, 2]) (some .tol) .l1 none).bind fun p => (p.1 fun _ => 0).map (·.1)) = .ok 3 ∧
    Ordinary (⟨.classical, 1, 2⟩ : Iv ℚ) := ⟨by decide +kernel, by decide +kernel, rfl, by norm_num⟩

/-! ## C76: subgradients -/

/-- The row of the `Tol` objective lies below its linearisation. -/
theorem wils_tol_row (hn : 0 < n) (X : Fin m → Fin n → Iv K) (y : Fin m → Iv K) (w : Fin m → K)
    (hX : ∀ i j, Ordinary (X i j)) (hw : ∀ i, 0 ≤ w i) (x z : Fin n → K) (i : Fin m) :
    wilsResidual .tol (recData X y w) z i ≤ wilsResidual .tol (recData X y w) x i +
      ∑ j, wilsDiff .tol (recData X y w) x i j * (z j - x j) := by
  rcases (hw i).eq_or_lt with h0 | h0
  · have hd : (recData X y w).weight i = 0 := h0.symm
    simp only [wilsResidual, wilsDiff, hd, zero_mul, neg_zero]
    simp
  · obtain ⟨f, g, h1, h2⟩ := C33_objective_is_minus_value .tol one_pos hn (fun _ : Fin 1 => X i) (fun _ => y i)
      (fun _ => w i) x (recData (fun _ : Fin 1 => X i) (fun _ => y i) (fun _ => w i)).infA
      (recData (fun _ : Fin 1 => X i) (fun _ => y i) (fun _ => w i)).supA (fun _ => hX i)
    have h1' : tolCalcfg (recData (fun _ : Fin 1 => X i) (fun _ => y i) (fun _ => w i)) x = .ok (f, g) := h1
    have := C32_tol_supergradient_partial hn (fun _ : Fin 1 => X i) (fun _ => y i) (fun _ => w i) (fun _ => hX i)
      (fun _ => h0) x z f g (wilsResidual .tol (recData X y w) z i) h1' (by
        rw [tolValue_eq hn _ _ _ z (fun _ => hX i)]; rfl)
    have hc := wilsCalcfg_inf .tol (recData (fun _ : Fin 1 => X i) (fun _ => y i) (fun _ => w i)) x
    have hc' := hc.trans h1'
    have e : wilsCalcfg .tol .inf (recData (fun _ : Fin 1 => X i) (fun _ => y i) (fun _ => w i)) x =
        .ok (-(wilsResidual .tol (recData X y w) x i), fun j => -(wilsDiff .tol (recData X y w) x i j)) := by
      have ha : npArgmin (wilsResidual .tol (recData (fun _ : Fin 1 => X i) (fun _ => y i) (fun _ => w i)) x) = .ok 0 := by
        rfl
      unfold wilsCalcfg wrapNorm
      dsimp only
      rw [ha]
      dsimp only
      congr 2
      funext j
      simp only [List.map_cons, List.map_nil, List.sum_cons, List.sum_nil, add_zero]
      rfl
    rw [e] at hc'
    injection hc' with hc
    obtain ⟨rfl, rfl⟩ := Prod.mk.inj hc
    simpa only [neg_neg] using this

/-- C76: for `Tol` and nonnegative weights the vector handed to the optimiser is a subgradient of the function it
minimises, for both norms (so this function is convex and the optimiser cannot be misled). -/
theorem C76_tol_subgradient (hn : 0 < n) (X : Fin m → Fin n → Iv K) (y : Fin m → Iv K) (w : Fin m → K)
    (hX : ∀ i j, Ordinary (X i j)) (hw : ∀ i, 0 ≤ w i) (norm : NormArg) (x z g g' : Fin n → K) (f f' : K)
    (h : wilsCalcfg .tol norm (recData X y w) x = .ok (f, g))
    (h' : wilsCalcfg .tol norm (recData X y w) z = .ok (f', g')) : f + ∑ j, g j * (z j - x j) ≤ f' := by
  cases norm with
  | inf =>
      unfold wilsCalcfg wrapNorm at h h'
      dsimp only at h h'
      split at h
      · cases h
      · next r hr =>
        split at hr
        · cases hr
        · next i hi =>
          injection hr with hr
          subst hr
          injection h with h
          obtain ⟨rfl, rfl⟩ := Prod.mk.inj h
          split at h'
          · cases h'
          · next r' hr' =>
            split at hr'
            · cases hr'
            · next i' hi' =>
              injection hr' with hr'
              subst hr'
              injection h' with h'
              obtain ⟨rfl, rfl⟩ := Prod.mk.inj h'
              have row := wils_tol_row hn X y w hX hw x z i
              obtain ⟨k, hk, hmin⟩ := npArgmin_ok i'.pos (wilsResidual .tol (recData X y w) z)
              rw [hi'] at hk
              injection hk with hk
              subst hk
              have := hmin i
              simp only [List.map_cons, List.map_nil, List.sum_cons, List.sum_nil, add_zero, neg_mul,
                Finset.sum_neg_distrib]
              linarith
  | l1 =>
      unfold wilsCalcfg wrapNorm at h h'
      dsimp only at h h'
      injection h with h
      obtain ⟨rfl, rfl⟩ := Prod.mk.inj h
      injection h' with h'
      obtain ⟨rfl, rfl⟩ := Prod.mk.inj h'
      have row := Finset.sum_le_sum fun i (_ : i ∈ Finset.univ) => wils_tol_row hn X y w hX hw x z i
      rw [Finset.sum_add_distrib, Finset.sum_comm] at row
      have e : ∀ j, (List.map (fun mc => wilsDiff .tol (recData X y w) x mc j) (List.finRange m)).sum =
          ∑ i, wilsDiff .tol (recData X y w) x i j := by
        intro j
        rw [← List.ofFn_eq_map, List.sum_ofFn]
      simp only [e, neg_mul, Finset.sum_neg_distrib, Finset.sum_mul]
      linarith
  | other => cases h

/-- The inequality with the weights 1 and 0 for the norm `l1`, at the points 0 and 2. -/
example : (wilsCalcfg .tol .l1 (recData (fun _ _ => ⟨.classical, 1, 2⟩ : Fin 2 → Fin 1 → Iv ℚ)
      (fun _ => ⟨.classical, 1, 4⟩) ![1, 0]) fun _ => 0).map (fun r => (r.1, r.2 0)) = .ok (1, -1) ∧
    (wilsCalcfg .tol .l1 (recData (fun _ _ => ⟨.classical, 1, 2⟩ : Fin 2 → Fin 1 → Iv ℚ)
      (fun _ => ⟨.classical, 1, 4⟩) ![1, 0]) fun _ => 2).map (fun r => (r.1, r.2 0)) = .ok (0, 2) :=
  ⟨by decide +kernel, by decide +kernel⟩

end IntvalPy
