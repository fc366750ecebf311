import Verif.PropsModels
import Verif.PropsArray

/-!
# `WILS.fit` and `WILS.predict` as a whole (C118)
-/

set_option autoImplicit false
set_option linter.unusedSectionVars false

namespace IntvalPy
open Spec

variable {K : Type*} [Field K] [LinearOrder K] [IsStrictOrderedRing K] {m n : ℕ}

/-- Smoothing keeps the number of weights. -/
theorem smooth_length (R : Rnd K) (f : K → K) (alpha beta : K) (w : List K) :
    (smooth R f alpha beta w).length = w.length := by
  have : ∀ (w : List K) (p : K), (smoothFrom R f alpha beta p w).length = w.length := by
    intro w
    induction w with
    | nil => intro p; rfl
    | cons s ss ih => intro p; simp [smoothFrom, ih]
  cases w with
  | nil => rfl
  | cons s ss => simp [smooth, this]

/-- When there is one weight per observation. -/
theorem fitWeights_length_iff (R : Rnd K) (st : K → K) (alpha beta : K) (hm : 0 < m) (weight : Option (List K)) :
    (∃ w, fitWeights R st alpha beta m weight = .ok w ∧ w.length = m) ↔ ∀ l, weight = some l → l.length = m := by
  unfold fitWeights
  cases weight with
  | none =>
      dsimp only
      rw [if_neg (by omega)]
      simp [smooth_length]
  | some l =>
      dsimp only
      constructor
      · rintro ⟨w, hw, hl⟩ l' e
        cases e
        split_ifs at hw with hc
        injection hw with hw
        subst hw
        push Not at hc
        rw [List.length_append, smooth_length, List.length_take, List.length_drop] at hl
        omega
      · intro h
        have hl := h l rfl
        rw [if_neg (by push Not; exact ⟨by omega, by omega⟩)]
        refine ⟨_, rfl, ?_⟩
        rw [List.length_append, smooth_length, List.length_take, List.length_drop]
        omega

/-- The weights given by the caller are positive. -/
def PosWeights (weight : Option (List K)) : Prop := ∀ l, weight = some l → ∀ t ∈ l, 0 < t

theorem fitWeights_posK {alpha beta : K} (ha : 0 ≤ alpha) (ha1 : alpha < 1) (hb : 0 < beta) {weight : Option (List K)}
    (hwt : PosWeights weight) {w : List K} (hw : fitWeights Rnd.exact id alpha beta m weight = .ok w) (hl : w.length = m)
    (i : Fin m) : 0 < weightVec w i := by
  have all : ∀ t ∈ w, 0 < t := by
    unfold fitWeights at hw
    cases weight with
    | none =>
        dsimp only at hw
        split_ifs at hw
        injection hw with hw
        subst hw
        exact C77_positive alpha beta ha ha1 hb _ (by intro t ht; rw [List.eq_of_mem_replicate ht]; exact one_pos)
    | some l =>
        dsimp only at hw
        split_ifs at hw
        injection hw with hw
        subst hw
        intro t ht
        rcases List.mem_append.1 ht with ht | ht
        · exact C77_positive alpha beta ha ha1 hb _ (fun t ht => hwt l rfl t (List.mem_of_mem_take ht)) t ht
        · exact hwt l rfl t (List.mem_of_mem_drop ht)
  have hi : i.val < w.length := by rw [hl]; exact i.isLt
  rw [weightVec, List.getD_eq_getElem?_getD, List.getElem?_eq_getElem hi]
  exact all _ (List.getElem_mem hi)

/-- The objective without constraint is minus the value to be maximised. -/
theorem wilsCalcfg_value (F : RecFun) (hm : 0 < m) (hn : 0 < n) (X : Fin m → Fin n → Iv K) (y : Fin m → Iv K)
    (hX : ∀ i j, Ordinary (X i j)) (w : Fin m → K) (norm : NormArg) (hno : norm ≠ .other) (x : Fin n → K) :
    ∃ v g, wilsCalcfg F norm (recData X y w) x = .ok (-v, g) ∧ ∀ u, FitValue F norm X y w x u ↔ u = v := by
  cases norm with
  | other => exact absurd rfl hno
  | inf =>
      obtain ⟨v, g, h1, h2⟩ := C33_objective_is_minus_value F hm hn X y w x (recData X y w).infA (recData X y w).supA hX
      refine ⟨-v, g, by rw [wilsCalcfg_inf, neg_neg]; exact h1, fun u => ?_⟩
      simp only [FitValue, h2]
      constructor
      · intro h
        injection h with h
        exact h.symm
      · rintro rfl
        rfl
  | l1 =>
      refine ⟨_, _, rfl, fun u => ?_⟩
      simp only [FitValue]
      constructor
      · rintro ⟨c, h3, rfl⟩
        refine Finset.sum_congr rfl fun i _ => ?_
        have := h3 i
        rw [wilsResidual_constituent F hn X y w x hX] at this
        injection this with this
        exact this.symm
      · rintro rfl
        exact ⟨_, fun i => wilsResidual_constituent F hn X y w x hX i, rfl⟩

/-- The penalty of the constraint, zero without one. -/
def penaltyOf (con : Option (Rows K n × K)) (x : Fin n → K) : K :=
  match con with
  | none => 0
  | some c => linearPenalty c.1 c.2 x

theorem wilsObjective_value (F : RecFun) (hm : 0 < m) (hn : 0 < n) (X : Fin m → Fin n → Iv K) (y : Fin m → Iv K)
    (hX : ∀ i j, Ordinary (X i j)) (w : Fin m → K) (norm : NormArg) (hno : norm ≠ .other)
    (con : Option (Rows K n × K)) (x : Fin n → K) :
    ∃ v g, wilsObjective (some F) norm (recData X y w) con x = .ok (-v + penaltyOf con x, g) ∧
      ∀ u, FitValue F norm X y w x u ↔ u = v := by
  obtain ⟨v, g, h1, h2⟩ := wilsCalcfg_value F hm hn X y hX w norm hno x
  cases con with
  | none => exact ⟨v, g, by simp [wilsObjective, h1, penaltyOf], h2⟩
  | some c =>
      refine ⟨v, fun j => g j + linearPenaltyGrad c.1 c.2 x j, ?_, h2⟩
      simp only [wilsObjective, calcfgConstr, h1, penaltyOf, Except.map]

/-- C118: `fit` returns exactly when there are observations, one weight per observation if weights are given, and the
objective and the norm are among the known ones. -/
theorem C118_returns_iff (R : Rnd K) (st : K → K) (P : RalgPar K n) (big alpha beta : K) (hn : 0 < n)
    (X : Fin m → Fin n → Iv K) (y : Fin m → Iv K) (x0 : Fin n → K) (weight : Option (List K)) (objective : Option RecFun)
    (norm : NormArg) (con : Option (Rows K n × K)) :
    (∃ r, wilsFit R st P big alpha beta X y x0 weight objective norm con = .ok r) ↔
      0 < m ∧ (∀ l, weight = some l → l.length = m) ∧ objective ≠ none ∧ norm ≠ .other := by
  have calc_ok : ∀ (F : RecFun) (w : Fin m → K), (∃ r, wilsObjective (some F) norm (recData X y w) con x0 = .ok r) ↔
      (norm = .inf → 0 < m) ∧ norm ≠ .other := by
    intro F w
    have base : (∃ r, wilsCalcfg F norm (recData X y w) x0 = .ok r) ↔ (norm = .inf → 0 < m) ∧ norm ≠ .other := by
      unfold wilsCalcfg
      cases norm with
      | other => simp [wrapNorm]
      | l1 => simp [wrapNorm]
      | inf =>
          simp only [wrapNorm]
          rcases Nat.eq_zero_or_pos m with h0 | hm
          · subst h0
            simp [npArgmin]
          · obtain ⟨k, hk, -⟩ := npArgmin_ok hm (wilsResidual F (recData X y w) x0)
            rw [hk]
            simp [hm]
    rw [← base]
    cases con with
    | none => rfl
    | some c =>
        simp only [wilsObjective, calcfgConstr]
        constructor
        · rintro ⟨r, hr⟩
          cases h : wilsCalcfg F norm (recData X y w) x0 with
          | error e => rw [h] at hr; cases hr
          | ok v => exact ⟨v, rfl⟩
        · rintro ⟨r, hr⟩
          exact ⟨_, by rw [hr]; rfl⟩
  constructor
  · rintro ⟨r, h⟩
    unfold wilsFit wilsProblem at h
    have hm : 0 < m := by
      refine Nat.pos_of_ne_zero fun h0 => ?_
      have : fitWeights R st alpha beta m weight = .error .indexError := by
        unfold fitWeights
        cases weight with
        | none => simp [h0]
        | some l => simp [h0]
      rw [this] at h
      cases h
    cases hw : fitWeights R st alpha beta m weight with
    | error e => rw [hw] at h; cases h
    | ok w =>
        rw [hw] at h
        dsimp only at h
        by_cases hl : w.length = m
        · rw [if_pos hl] at h
          dsimp only at h
          refine ⟨hm, (fitWeights_length_iff R st alpha beta hm weight).1 ⟨w, hw, hl⟩, ?_⟩
          cases objective with
          | none => simp [wilsObjective] at h
          | some F =>
              refine ⟨by simp, ?_⟩
              have : ∃ r, wilsObjective (some F) norm (recData X y (weightVec w)) con x0 = .ok r := by
                cases hc : wilsObjective (some F) norm (recData X y (weightVec w)) con x0 with
                | error e => rw [hc] at h; cases h
                | ok r => exact ⟨r, rfl⟩
              exact ((calc_ok F _).1 this).2
        · rw [if_neg hl] at h
          cases h
  · rintro ⟨hm, hwt, hobj, hno⟩
    obtain ⟨w, hw, hl⟩ := (fitWeights_length_iff R st alpha beta hm weight).2 hwt
    cases objective with
    | none => exact absurd rfl hobj
    | some F =>
        obtain ⟨r, hr⟩ := (calc_ok F (weightVec w)).2 ⟨fun _ => hm, hno⟩
        unfold wilsFit wilsProblem
        rw [hw]
        dsimp only
        rw [if_pos hl]
        dsimp only
        rw [hr]
        exact ⟨_, rfl⟩

/-- C118, the exceptions of `fit`: `IndexError` without observations or with too few weights; otherwise `Exception` for an
unknown objective; otherwise `ValueError` with too many weights; otherwise `UnboundLocalError` for an unknown norm. -/
theorem C118_raises (R : Rnd K) (st : K → K) (P : RalgPar K n) (big alpha beta : K)
    (X : Fin m → Fin n → Iv K) (y : Fin m → Iv K) (x0 : Fin n → K) (weight : Option (List K)) (objective : Option RecFun)
    (norm : NormArg) (con : Option (Rows K n × K)) :
    (m = 0 ∨ (∃ l, weight = some l ∧ l.length < m) →
      wilsFit R st P big alpha beta X y x0 weight objective norm con = .error .indexError) ∧
    (0 < m → (∀ l, weight = some l → m ≤ l.length) → objective = none →
      wilsFit R st P big alpha beta X y x0 weight objective norm con = .error .exception) ∧
    (0 < m → objective ≠ none → (∃ l, weight = some l ∧ m < l.length) →
      wilsFit R st P big alpha beta X y x0 weight objective norm con = .error .valueError) ∧
    (0 < m → objective ≠ none → (∀ l, weight = some l → l.length = m) → norm = .other →
      wilsFit R st P big alpha beta X y x0 weight objective norm con = .error .unboundLocalError) := by
  refine ⟨?_, ?_, ?_, ?_⟩
  · intro h
    have : fitWeights R st alpha beta m weight = .error .indexError := by
      unfold fitWeights
      cases weight with
      | none =>
          rcases h with h | ⟨l, h, _⟩
          · simp [h]
          · cases h
      | some l =>
          rcases h with h | ⟨l', h, h'⟩
          · simp [h]
          · cases h
            simp [h']
    unfold wilsFit wilsProblem
    rw [this]
  · rintro hm hw rfl
    have : ∃ w, fitWeights R st alpha beta m weight = .ok w := by
      unfold fitWeights
      cases weight with
      | none => exact ⟨_, if_neg hm.ne'⟩
      | some l => exact ⟨_, by dsimp only; rw [if_neg (not_or.mpr ⟨hm.ne', not_lt.mpr (hw l rfl)⟩)]⟩
    obtain ⟨w, hw⟩ := this
    unfold wilsFit wilsProblem
    rw [hw]
    dsimp only
    split_ifs <;> rfl
  · rintro hm hobj ⟨l, rfl, hl⟩
    cases objective with
    | none => exact absurd rfl hobj
    | some F =>
        cases hw : fitWeights R st alpha beta m (some l) with
        | error e =>
            unfold fitWeights at hw
            dsimp only at hw
            rw [if_neg (not_or.mpr ⟨hm.ne', not_lt.mpr hl.le⟩)] at hw
            cases hw
        | ok w =>
            have hlen : ¬ w.length = m := fun h =>
              absurd ((fitWeights_length_iff R st alpha beta hm (some l)).1 ⟨w, hw, h⟩ l rfl) hl.ne'
            unfold wilsFit wilsProblem
            rw [hw]
            dsimp only
            rw [if_neg hlen]
  · rintro hm hobj hw rfl
    obtain ⟨w, hw, hl⟩ := (fitWeights_length_iff R st alpha beta hm weight).2 hw
    cases objective with
    | none => exact absurd rfl hobj
    | some F =>
        unfold wilsFit wilsProblem
        rw [hw]
        dsimp only
        rw [if_pos hl]
        cases con <;> rfl

/-- Three weights for two observations. -/
example (P : RalgPar ℚ 1) : wilsFit (Rnd.exact : Rnd ℚ) id P 1000 0 1 (fun _ _ => ⟨.classical, 1, 2⟩ : Fin 2 → Fin 1 → Iv ℚ)
    (fun _ => ⟨.classical, 1, 2⟩) (fun _ => 0) (some [1, 1, 1]) (some .tol) .inf none = .error .valueError :=
  (C118_raises _ _ P _ _ _ _ _ _ _ _ _ _).2.2.1 (by norm_num) (by simp) ⟨_, rfl, by simp⟩

/-- C118: the estimator reports the value of the functional at its `xr` minus the penalty of the constraint there, and at
least what it is at the initial guess. -/
theorem C118_fit {P : RalgPar K n} {big alpha beta : K} (hn : 0 < n) {R : Rnd K} {st : K → K}
    {X : Fin m → Fin n → Iv K} {y : Fin m → Iv K} (hX : ∀ i j, Ordinary (X i j)) {x0 : Fin n → K}
    {weight : Option (List K)} {objective : Option RecFun} {norm : NormArg} {con : Option (Rows K n × K)}
    {o : RalgOut K n} {w : List K}
    (h : wilsFit R st P big alpha beta X y x0 weight objective norm con = .ok (o, w)) :
    ∃ F v, objective = some F ∧ FitValue F norm X y (weightVec w) o.xr v ∧ o.fr = v - penaltyOf con o.xr ∧
      ∀ v0, FitValue F norm X y (weightVec w) x0 v0 → v0 - penaltyOf con x0 ≤ o.fr := by
  obtain ⟨hm, -, hobj, hno⟩ := (C118_returns_iff R st P big alpha beta hn X y x0 weight objective norm con).1 ⟨_, h⟩
  cases objective with
  | none => exact absurd rfl hobj
  | some F =>
    unfold wilsFit wilsProblem at h
    cases hw : fitWeights R st alpha beta m weight with
    | error e => rw [hw] at h; cases h
    | ok w' =>
        rw [hw] at h
        dsimp only at h
        by_cases hl : w'.length = m
        · rw [if_pos hl] at h
          dsimp only at h
          have val := fun x => wilsObjective_value F hm hn X y hX (weightVec w') norm hno con x
          choose v g h1 h2 using val
          rw [h1 x0] at h
          injection h with h
          obtain ⟨rfl, rfl⟩ := Prod.mk.inj h
          obtain ⟨⟨_, q2, _, q4⟩, _⟩ := C35_ralgb5 P big
            (fun x => orZero (wilsObjective (some F) norm (recData X y (weightVec w')) con x)) x0
          simp only [h1, orZero] at q2 q4
          refine ⟨F, v (ralgb5 P big (fun x => orZero (wilsObjective (some F) norm (recData X y (weightVec w')) con x)) x0).xr,
            rfl, (h2 _ _).2 rfl, ?_, ?_⟩
          · dsimp only
            simp only [h1, orZero]
            rw [q2]
            ring
          · intro v0 hv0
            rw [h2] at hv0
            subst hv0
            dsimp only
            simp only [h1, orZero]
            linarith
        · rw [if_neg hl] at h
          cases h

/-- The compatibility that the functional recognises: all (`Tol`) or some (`Uni`, `Uss`) point systems. -/
def Compatible (F : RecFun) (X : Fin m → Fin n → Iv K) (y : Fin m → Iv K) (x : Fin n → K) : Prop :=
  match F with
  | .tol => Tolerable X y x
  | _ => United X y x

theorem value_compatible (F : RecFun) (hm : 0 < m) (hn : 0 < n) (X : Fin m → Fin n → Iv K) (y : Fin m → Iv K)
    (w : Fin m → K) (x : Fin n → K) (hX : ∀ i j, Ordinary (X i j)) (hy : ∀ i, Ordinary (y i)) (hw : ∀ i, 0 < w i) (v : K)
    (h : F.value X y w x = .ok v) : 0 ≤ v ↔ Compatible F X y x := by
  cases F with
  | tol =>
      obtain ⟨u, h1, h2⟩ := C30_tol_iff_tolerable hm hn X y w x hX hw
      simp only [RecFun.value] at h
      rw [h1] at h
      cases h
      exact h2
  | uni =>
      obtain ⟨u, h1, h2⟩ := C31_uni_iff_united hm hn X y w x hX hw
      simp only [RecFun.value] at h
      rw [h1] at h
      cases h
      exact h2
  | uss =>
      obtain ⟨u, h1, h2⟩ := C31_uss_iff_united hm hn X y w x hX hy hw
      simp only [RecFun.value] at h
      rw [h1] at h
      cases h
      exact h2

/-- C118: with positive weights, `0 <= alpha < 1` and `beta > 0`, and the norm `inf`: without a constraint the value
reported is nonnegative exactly when the fitted parameters are compatible with all observations; with a constraint of a
nonnegative factor a nonnegative value still certifies this. -/
theorem C118_compatible {P : RalgPar K n} {big alpha beta : K} (ha : 0 ≤ alpha) (ha1 : alpha < 1) (hb : 0 < beta)
    (hn : 0 < n) {X : Fin m → Fin n → Iv K} {y : Fin m → Iv K} (hX : ∀ i j, Ordinary (X i j)) (hy : ∀ i, Ordinary (y i))
    {x0 : Fin n → K} {weight : Option (List K)} (hwt : PosWeights weight) {F : RecFun}
    {con : Option (Rows K n × K)} (hcon : ∀ c, con = some c → 0 ≤ c.2) {o : RalgOut K n} {w : List K}
    (h : wilsFit Rnd.exact id P big alpha beta X y x0 weight (some F) .inf con = .ok (o, w)) :
    (0 ≤ o.fr → Compatible F X y o.xr) ∧ (con = none → Compatible F X y o.xr → 0 ≤ o.fr) := by
  obtain ⟨F', v, e, hv, hfr, -⟩ := C118_fit hn hX h
  cases e
  obtain ⟨hm, hl, -⟩ := (C118_returns_iff _ _ P big alpha beta hn X y x0 weight (some F) .inf con).1 ⟨_, h⟩
  have hpos : ∀ i : Fin m, 0 < weightVec w i := by
    obtain ⟨w', hw', hl'⟩ := (fitWeights_length_iff Rnd.exact id alpha beta hm weight).2 hl
    have : w' = w := by
      unfold wilsFit wilsProblem at h
      rw [hw'] at h
      dsimp only at h
      rw [if_pos hl'] at h
      dsimp only at h
      split at h
      · cases h
      · injection h with h
        exact (Prod.mk.inj h).2
    subst this
    exact fitWeights_posK ha ha1 hb hwt hw' hl'
  have key := value_compatible F hm hn X y (weightVec w) o.xr hX hy hpos v hv
  have hpen : 0 ≤ penaltyOf con o.xr := by
    cases con with
    | none => exact le_refl _
    | some c => exact mul_nonneg (hcon c rfl) (sum_excess c.1 o.xr).1
  constructor
  · intro h0
    exact key.1 (by linarith)
  · rintro rfl hc
    have := key.2 hc
    rw [hfr]
    simp only [penaltyOf, sub_zero]
    exact this

/-- C118: the prediction for a row encloses `A' @ xr` for all point rows `A'` of it, for every rounding. -/
theorem C118_predict (hn : 0 < n) (R : Rnd K) (xr : Fin n → K) (x : Fin n → Iv K) (hx : ∀ j, Ordinary (x j)) :
    ∃ V, wilsPredict R xr x = some V ∧ Ordinary V ∧
      ∀ t : Fin n → K, (∀ j, t j ∈ x j) → ∑ j, t j * xr j ∈ V := by
  obtain ⟨V, h1, h2, -⟩ := (C26_matmul_point_encloses R x xr hn hx (fun j => (x j).a)
    (fun j => ⟨le_refl _, (hx j).2⟩)).1
  refine ⟨V, h1, h2, fun t ht => ?_⟩
  obtain ⟨V', h1', -, h3⟩ := (C26_matmul_point_encloses R x xr hn hx t ht).1
  rw [h1] at h1'
  cases h1'
  exact h3

/-- Two intervals have a common point. -/
def Meets (X Y : Iv K) : Prop := ∃ t, t ∈ X ∧ t ∈ Y

/-- C118: in exact arithmetic the compatibility can be read off the predictions for the training data: for `Tol` every
prediction is contained in the output, for `Uni` and `Uss` every prediction meets the output. -/
theorem C118_training (hn : 0 < n) (F : RecFun) (X : Fin m → Fin n → Iv K) (y : Fin m → Iv K)
    (hX : ∀ i j, Ordinary (X i j)) (x : Fin n → K) :
    Compatible F X y x ↔ ∀ i, ∃ V, wilsPredict Rnd.exact x (X i) = some V ∧
      (match F with
        | .tol => ∀ t, t ∈ V → t ∈ y i
        | _ => Meets V (y i)) := by
  have rng := fun i => C26_matvec_range (X i) x hn (hX i)
  choose V h1 h2 using rng
  have red : ∀ Q : Fin m → Iv K → Prop, (∀ i, ∃ V, wilsPredict Rnd.exact x (X i) = some V ∧ Q i V) ↔ ∀ i, Q i (V i) := by
    intro Q
    refine forall_congr' fun i => ⟨?_, fun h => ⟨V i, h1 i, h⟩⟩
    rintro ⟨W, hW, hQ⟩
    have : some W = some (V i) := hW.symm.trans (h1 i)
    cases this
    exact hQ
  have tolCase : Tolerable X y x ↔ ∀ i, ∀ t, t ∈ V i → t ∈ y i := by
    constructor
    · intro h i t ht
      obtain ⟨A1, ha1, e1⟩ := (h2 i).2.1
      obtain ⟨A2, ha2, e2⟩ := (h2 i).2.2
      have pick : ∀ A1 : Fin n → K, (∀ j, A1 j ∈ X i j) → ∑ j, A1 j * x j ∈ y i := by
        intro A1 hA1
        have := h (fun k j => if k = i then A1 j else (X k j).a) (by
          intro k j
          dsimp only
          split_ifs with hk
          · subst hk; exact hA1 j
          · exact ⟨le_refl _, (hX k j).2⟩) i
        simpa [apply] using this
      have p1 := pick A1 ha1
      have p2 := pick A2 ha2
      rw [← e1] at p1
      rw [← e2] at p2
      exact ⟨p1.1.trans ht.1, ht.2.trans p2.2⟩
    · intro h A' hA' i
      exact h i _ ((h2 i).1 _ ⟨fun j => A' i j, fun j => hA' i j, rfl⟩)
  have uniCase : United X y x ↔ ∀ i, Meets (V i) (y i) := by
    rw [united_iff hn X y x hX]
    refine forall_congr' fun i => ?_
    have ea : (V i).a = rowMid (X i) x - rowRad (X i) x := by
      have hr := rowRad_nonneg (hX i) x
      refine le_antisymm ?_ ?_
      · obtain ⟨A1, k1, k2⟩ := (row_values (X i) x hn (hX i) (rowMid (X i) x - rowRad (X i) x)).mpr
          ⟨le_refl _, by linarith⟩
        exact ((h2 i).1 _ ⟨A1, k1, k2.symm⟩).1
      · obtain ⟨A1, k1, k2⟩ := (h2 i).2.1
        exact ((row_values (X i) x hn (hX i) _).mp ⟨A1, k1, k2.symm⟩).1
    have eb : (V i).b = rowMid (X i) x + rowRad (X i) x := by
      have hr := rowRad_nonneg (hX i) x
      refine le_antisymm ?_ ?_
      · obtain ⟨A1, k1, k2⟩ := (h2 i).2.2
        exact ((row_values (X i) x hn (hX i) _).mp ⟨A1, k1, k2.symm⟩).2
      · obtain ⟨A1, k1, k2⟩ := (row_values (X i) x hn (hX i) (rowMid (X i) x + rowRad (X i) x)).mpr
          ⟨by linarith, le_refl _⟩
        exact ((h2 i).1 _ ⟨A1, k1, k2.symm⟩).2
    have hr := rowRad_nonneg (hX i) x
    rw [← ea, ← eb]
    constructor
    · rintro ⟨k1, k2, k3⟩
      exact ⟨max (V i).a (y i).a, ⟨le_max_left _ _, max_le (by linarith) k3⟩, le_max_right _ _, max_le k2 k1⟩
    · rintro ⟨t, ⟨t1, t2⟩, t3, t4⟩
      exact ⟨t3.trans t4, t1.trans t4, t3.trans t2⟩
  cases F with
  | tol => rw [red]; exact tolCase
  | uni => rw [red]; exact uniCase
  | uss => rw [red]; exact uniCase

/-- A fit of `y = x` on two observations: the initial guess 0 is not compatible (`-2`), the estimator reports a
nonnegative value. -/
example : ((wilsFit (Rnd.exact : Rnd ℚ) id ⟨1 / 10, 1 / 10, 1 / 10, 1, 2, 30, 1 / 2, 3, 1 / 2, 2,
      fun g => ∑ i, |g i|, fun g j => g j / ∑ i, |g i|⟩ 1000 0 1
      (fun i _ => if i = 0 then ⟨.classical, 1, 1⟩ else ⟨.classical, 2, 3⟩ : Fin 2 → Fin 1 → Iv ℚ)
      (fun i => if i = 0 then ⟨.classical, 0, 2⟩ else ⟨.classical, 2, 4⟩) (fun _ => 0) none (some .tol) .inf none).map
        fun r => decide (0 ≤ r.1.fr)) = .ok true ∧
    wilsPredict (Rnd.exact : Rnd ℚ) (fun _ : Fin 1 => 1) (fun _ => ⟨.classical, 2, 3⟩) = some ⟨.classical, 2, 3⟩ := by
  constructor <;> decide +kernel

end IntvalPy
