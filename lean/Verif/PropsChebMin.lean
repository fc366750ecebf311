import Verif.ModelChebMin
import Verif.PropsChebExact
import Verif.PropsRalgbConv

/-!
# C138: what ChebNorm.minimize returns.  C139: ChebNorm and the accuracy of the linear programming solver
-/

set_option autoImplicit false
set_option linter.unusedSectionVars false

namespace IntvalPy
open Spec

variable {K : Type*} [Field K] [LinearOrder K] [IsStrictOrderedRing K] {m n : ℕ}

/-! ## C138 -/

/-- The penalty of a point: zero without a constraint. -/
def chebPenalty (con : Option (Rows K n × K)) (x : Fin n → K) : K :=
  match con with
  | none => 0
  | some c => linearPenalty c.1 c.2 x

theorem npArgmax_max {f : Fin m → K} {i : Fin m} (h : npArgmax f = .ok i) : ∀ k, f k ≤ f i := by
  intro k
  unfold npArgmax at h
  cases ha : (List.finRange m).argmax f with
  | none => rw [ha] at h; cases h
  | some i' =>
    rw [ha] at h
    cases h
    exact List.le_of_mem_argmax (List.mem_finRange k) ha

/-- The objective and the public functional agree. -/
theorem chebObjective_ok (hm : 0 < m) (st : K → K) (lp : (Fin n → K) → (Fin n → K) → (Fin n → K) → Fin n → K)
    (d : RecData K m n) (con : Option (Rows K n × K)) (x : Fin n → K) :
    ∃ v g, chebObjective st lp d con x = .ok (v + chebPenalty con x, g) ∧ chebValueSt st lp d x = .ok v := by
  have key : ∃ v g, chebCalcfgSt st lp d x = .ok (v, g) ∧ chebValueSt st lp d x = .ok v := by
    obtain ⟨i, hi⟩ : ∃ i, npArgmax (chebArrSt st lp d x) = .ok i := by
      unfold npArgmax
      cases ha : (List.finRange m).argmax (chebArrSt st lp d x) with
      | none =>
        exfalso
        rw [List.argmax_eq_none] at ha
        have := congrArg List.length ha
        simp at this
        omega
      | some i => exact ⟨i, rfl⟩
    refine ⟨chebArrSt st lp d x i, _, by rw [chebCalcfgSt, hi], ?_⟩
    obtain ⟨v, hv⟩ := npAmax_ok (l := List.ofFn (chebArrSt st lp d x)) (by
      intro hnil
      have := congrArg List.length hnil
      simp at this
      omega)
    obtain ⟨v1, v2⟩ := npAmax_spec hv
    obtain ⟨k, hk⟩ := (List.mem_ofFn' _ _).mp v1
    have : v = chebArrSt st lp d x i :=
      le_antisymm (hk ▸ npArgmax_max hi k) (v2 _ ((List.mem_ofFn' _ _).mpr ⟨i, rfl⟩))
    rw [chebValueSt, hv, this]
  obtain ⟨v, g, h1, h2⟩ := key
  cases con with
  | none => exact ⟨v, g, by simp only [chebObjective, chebPenalty, add_zero, h1], h2⟩
  | some c => exact ⟨v, fun j => g j + linearPenaltyGrad c.1 c.2 x j,
      by simp only [chebObjective, chebPenalty, calcfgConstr, h1, Except.map], h2⟩

/-- C138: for any system with at least one equation, whatever the linear programming solver returns and whatever the
element type of the endpoint arrays, `ChebNorm.minimize` returns a point it has evaluated and the value of
`ChebNorm.value` there, plus the penalty.  No evaluated point is better, the starting point in particular. -/
theorem C138_minimize (hm : 0 < m) (st : K → K) (lp : (Fin n → K) → (Fin n → K) → (Fin n → K) → Fin n → K)
    (P : RalgPar K n) (big : K) (d : RecData K m n) (con : Option (Rows K n × K)) (x0 : Fin n → K) :
    ∃ o v, chebMinimize st lp P big d con x0 = .ok o ∧ chebValueSt st lp d o.xr = .ok v ∧
      o.fr = v + chebPenalty con o.xr ∧ o.xr ∈ o.evals ∧
      (∀ u, chebValueSt st lp d x0 = .ok u → o.fr ≤ u + chebPenalty con x0) ∧
      (∀ e ∈ o.evals, ∀ u, chebValueSt st lp d e = .ok u → o.fr ≤ u + chebPenalty con e) ∧
      1 ≤ o.ccode ∧ o.ccode ≤ 5 ∧ o.ncalls = o.evals.length := by
  choose v g h1 h2 using chebObjective_ok hm st lp d con
  have htot : ∀ x, chebObjTotal st lp d con x = (v x + chebPenalty con x, g x) := by
    intro x
    rw [chebObjTotal, h1]
  obtain ⟨⟨q1, q2, q3, q4⟩, ⟨q5, _⟩, ⟨q6, q7⟩, _⟩ := C35_ralgb5 P big (chebObjTotal st lp d con) x0
  refine ⟨_, v _, by rw [chebMinimize, h1], h2 _, ?_, q1, ?_, ?_, q6, q7, q5⟩
  · rw [q2, htot]
  · intro u hu
    rw [h2] at hu
    cases hu
    rwa [htot] at q4
  · intro e he u hu
    have := q3 e he
    rw [h2] at hu
    cases hu
    rwa [htot] at this

/-- C138, a system without equations raises. -/
theorem C138_empty (st : K → K) (lp : (Fin n → K) → (Fin n → K) → (Fin n → K) → Fin n → K)
    (P : RalgPar K n) (big : K) (d : RecData K 0 n) (con : Option (Rows K n × K)) (x0 : Fin n → K) :
    chebMinimize st lp P big d con x0 = .error .valueError := by
  cases con <;> rfl

theorem chebPenalty_nonneg (con : Option (Rows K n × K)) (hcon : ∀ c, con = some c → 0 ≤ c.2) (x : Fin n → K) :
    0 ≤ chebPenalty con x := by
  cases con with
  | none => exact le_refl _
  | some c =>
    refine mul_nonneg (hcon c rfl) (List.sum_nonneg ?_)
    intro y hy
    obtain ⟨r, -, rfl⟩ := List.mem_map.mp hy
    split_ifs with h
    · linarith
    · exact le_refl _

theorem chebPenalty_feasible (con : Option (Rows K n × K)) (x : Fin n → K) (h : ∀ c, con = some c → RowsOK c.1 x) :
    chebPenalty con x = 0 := by
  cases con with
  | none => rfl
  | some c =>
    have : (c.1.map fun r => if r.2 < dotF r.1 x then dotF r.1 x - r.2 else 0).sum = 0 := by
      apply List.sum_eq_zero
      intro y hy
      obtain ⟨r, hr, rfl⟩ := List.mem_map.mp hy
      rw [if_neg (not_lt.mpr (h c rfl r hr))]
    rw [chebPenalty, linearPenalty, this, mul_zero]

/-- C138 with a constraint and a nonnegative factor: the returned number is an upper bound of `ChebNorm.value` at the
returned point, and not above its value at any evaluated point that satisfies the constraint.  With an exact solver and
right endpoint arrays, no residual at the returned point exceeds it by more than twice the weighted radius of the row. -/
theorem C138_bounds (hm : 0 < m) (hn : 0 < n) (lp : (Fin n → K) → (Fin n → K) → (Fin n → K) → Fin n → K)
    (hlp : IsBoxLP lp) (P : RalgPar K n) (big : K) (A : Fin m → Fin n → Iv K) (b : Fin m → Iv K) (w : Fin m → K)
    (hA : ∀ i j, Ordinary (A i j)) (hb : ∀ i, Ordinary (b i)) (hw : ∀ i, 0 < w i)
    (con : Option (Rows K n × K)) (hcon : ∀ c, con = some c → 0 ≤ c.2) (x0 : Fin n → K) :
    ∃ o v, chebMinimize id lp P big (recData A b w) con x0 = .ok o ∧ chebValue lp A b w o.xr = .ok v ∧ v ≤ o.fr ∧
      (∀ e ∈ o.evals, (∀ c, con = some c → RowsOK c.1 e) → ∀ u, chebValue lp A b w e = .ok u → o.fr ≤ u) ∧
      (∀ A' b', InMat A' A → InVec b' b → ∀ i, w i * |b' i - apply A' o.xr i| ≤
        o.fr + 2 * (w i * min (rowRad (A i) o.xr) |(b i).mid Rnd.exact - rowMid (A i) o.xr|)) := by
  obtain ⟨o, v, h1, h2, h3, _, _, h5, _⟩ := C138_minimize hm id lp P big (recData A b w) con x0
  have hp := chebPenalty_nonneg con hcon o.xr
  refine ⟨o, v, h1, h2, by linarith, ?_, ?_⟩
  · intro e he hc u hu
    have := h5 e he u hu
    rwa [chebPenalty_feasible con e hc, add_zero] at this
  · intro A' b' hA' hb' i
    have := C46_deficit hn lp hlp A b w o.xr hA hb hw v h2 A' b' hA' hb' i
    linarith

/-- The objective of `ChebNorm.minimize` for a point matrix and unit weights is a convex function with its
subgradients. -/
theorem cheb_oracle (hm : 0 < m) (hn : 0 < n) (lp : (Fin n → K) → (Fin n → K) → (Fin n → K) → Fin n → K)
    (hlp : IsBoxLP lp) (A : Fin m → Fin n → Iv K) (b : Fin m → Iv K) (hA : ∀ i j, Ordinary (A i j))
    (hpt : ∀ i j, (A i j).a = (A i j).b) :
    SubgradOracle (chebObjTotal id lp (recData A b fun _ => 1) none) := by
  intro x y
  obtain ⟨f, g, h1, _⟩ := chebObjective_ok hm id lp (recData A b fun _ => 1) none x
  obtain ⟨f', g', h3, h4⟩ := chebObjective_ok hm id lp (recData A b fun _ => 1) none y
  rw [chebObjTotal, chebObjTotal, h1, h3]
  simp only [chebPenalty, add_zero] at h1 ⊢
  exact C69_cheb_gradient_partial hn lp hlp A b x y f g f' hA hpt h1 h4

/-- C138, the minimum in one unknown: for a point matrix, unit weights and an exact solver, if the norm has its minimum
less than 500 away from the start, the minimisation with the default parameters stops by a tolerance after at most 60
iterations. -/
theorem C138_converges {m : ℕ} (hm : 0 < m) (lp : (Fin 1 → ℝ) → (Fin 1 → ℝ) → (Fin 1 → ℝ) → Fin 1 → ℝ)
    (hlp : IsBoxLP lp) (big : ℝ) (A : Fin m → Fin 1 → Iv ℝ) (b : Fin m → Iv ℝ) (hA : ∀ i j, Ordinary (A i j))
    (hpt : ∀ i j, (A i j).a = (A i j).b) (x0 z : Fin 1 → ℝ) (v : ℝ)
    (hz : chebValue lp A b (fun _ => 1) z = .ok v)
    (hmin : ∀ y u, chebValue lp A b (fun _ => 1) y = .ok u → v ≤ u) (hr : |x0 0 - z 0| < 500) :
    ∃ o, chebMinimize id lp (defaultPar 1) big (recData A b fun _ => 1) none x0 = .ok o ∧
      (o.ccode = 1 ∨ o.ccode = 2 ∨ o.ccode = 3) ∧ o.nit ≤ 60 := by
  obtain ⟨f0, g0, h0, _⟩ := chebObjective_ok hm id lp (recData A b fun _ => 1) none x0
  have h := C111_default big _ (cheb_oracle hm one_pos lp hlp A b hA hpt) x0 z (by
    intro y
    obtain ⟨f, g, h1, h2⟩ := chebObjective_ok hm id lp (recData A b fun _ => 1) none z
    obtain ⟨f', g', h3, h4⟩ := chebObjective_ok hm id lp (recData A b fun _ => 1) none y
    rw [chebObjTotal, chebObjTotal, h1, h3]
    simp only [chebPenalty, add_zero]
    have e : chebValue lp A b (fun _ => 1) z = .ok f := h2
    rw [hz] at e
    cases e
    exact hmin y f' h4) hr
  exact ⟨_, by rw [chebMinimize, h0], h.1, h.2⟩

/-- The hypotheses of `C138_converges` hold for the equation `2 x = [1,3]`, whose norm is least, 1, at `x = 1`. -/
example : chebValue cornerLP (fun _ _ => ⟨.classical, 2, 2⟩ : Fin 1 → Fin 1 → Iv ℝ) (fun _ => ⟨.classical, 1, 3⟩)
      (fun _ => 1) (fun _ => 1) = .ok 1 ∧
    ∀ y u, chebValue cornerLP (fun _ _ => ⟨.classical, 2, 2⟩ : Fin 1 → Fin 1 → Iv ℝ) (fun _ => ⟨.classical, 1, 3⟩)
      (fun _ => 1) y = .ok u → 1 ≤ u := by
  have h : ∀ y, chebValue cornerLP (fun _ _ => ⟨.classical, 2, 2⟩ : Fin 1 → Fin 1 → Iv ℝ)
      (fun _ => ⟨.classical, 1, 3⟩) (fun _ => 1) y = .ok (1 + |2 - 2 * y 0|) := by
    intro y
    have e : ∀ c : Fin 1 → ℝ, cornerLP c (fun _ => 2) (fun _ => 2) = fun _ => 2 := by
      intro c
      funext j
      simp [cornerLP]
    have hm : (⟨.classical, 1, 3⟩ : Iv ℝ).mid Rnd.exact = 2 := by
      have := mid_sub_rad (⟨.classical, 1, 3⟩ : Iv ℝ)
      have h2 := mid_add_rad (⟨.classical, 1, 3⟩ : Iv ℝ)
      simp only at this h2
      linarith
    have hr : (⟨.classical, 1, 3⟩ : Iv ℝ).rad Rnd.exact = 1 := by
      have := mid_sub_rad (⟨.classical, 1, 3⟩ : Iv ℝ)
      have h2 := mid_add_rad (⟨.classical, 1, 3⟩ : Iv ℝ)
      simp only at this h2
      linarith
    simp [chebValue, chebArr, recData, chebRow, e, hm, hr, dotF, npAmax, List.ofFn_succ]
  refine ⟨by rw [h]; norm_num, fun y u hu => ?_⟩
  rw [h] at hu
  cases hu
  linarith [abs_nonneg (2 - 2 * y 0)]

/-- A run: the equation `x = 0` with integer endpoints, two steps from `x = 1`. -/
example : (chebMinimizeF cornerLP ⟨0, 0, 0, 0, 1, 1, 1, 1, 1, 1, fun v => |v 0|, fun v j => if 0 < v j then 1 else -1⟩ 100
    (fun _ _ => ⟨.classical, .int 1, .int 1⟩ : Fin 1 → Fin 1 → FIv) (fun _ => ⟨.classical, .int 0, .int 0⟩) (fun _ => 1)
    none (fun _ => 1)).map (fun o => (o.xr 0, o.fr)) = .ok (0, 0) := by
  decide +kernel

/-- C138 on interval objects: whatever the endpoints are, the returned value is `ChebNorm.value` of the same objects at
the returned point. -/
theorem C138_objects (hm : 0 < m) (lp : (Fin n → ℚ) → (Fin n → ℚ) → (Fin n → ℚ) → Fin n → ℚ)
    (P : RalgPar ℚ n) (big : ℚ) (A : Fin m → Fin n → FIv) (b : Fin m → FIv) (w : Fin m → ℚ) (x0 : Fin n → ℚ)
    (o : RalgOut ℚ n) (h : chebMinimizeF lp P big A b w none x0 = .ok o) :
    chebValueF lp A b w o.xr = .ok o.fr ∧ ∀ u, chebValueF lp A b w x0 = .ok u → o.fr ≤ u := by
  unfold chebMinimizeF at h
  unfold chebValueF
  cases ha : arrA (rowMajor A) with
  | error e => rw [ha] at h; cases h
  | ok la =>
    cases hb : arrB (rowMajor A) with
    | error e => rw [ha, hb] at h; cases h
    | ok lb =>
      rw [ha, hb] at h
      obtain ⟨o', v, h1, h2, h3, _, h5, _⟩ := C138_minimize hm (viewCast la) lp P big
        ((recData (fun i j => ivRat (A i j)) (fun i => ivRat (b i)) w).withViews (viewMat la) (viewMat lb)) none x0
      have : o' = o := by
        have := h1.symm.trans h
        cases this
        rfl
      subst this
      simp only [chebPenalty, add_zero] at h3 h5
      rw [h3]
      refine ⟨h2, fun u hu => ?_⟩
      rw [← h3]
      exact h5 u hu

/-! ## C139 -/

/-- Two solvers return points whose coordinates differ by at most `δ`. -/
def NearLP (δ : K) (lp lp' : (Fin n → K) → (Fin n → K) → (Fin n → K) → Fin n → K) : Prop :=
  ∀ c lo hi : Fin n → K, (∀ j, lo j ≤ hi j) → ∀ j, |lp' c lo hi j - lp c lo hi j| ≤ δ

/-- C139 (full statement, false of the code): a solver that is accurate up to `δ` changes the value by at most `δ` times
the sum of the absolute values of the coordinates. -/
def C139_statement : Prop :=
  ∀ (m n : ℕ) (lp lp' : (Fin n → ℚ) → (Fin n → ℚ) → (Fin n → ℚ) → Fin n → ℚ) (A : Fin m → Fin n → FIv) (b : Fin m → FIv)
    (x : Fin n → ℚ) (δ v v' : ℚ), (∀ i j, Ordinary (ivRat (A i j))) → (∀ i, Ordinary (ivRat (b i))) →
    IsBoxLP lp → NearLP δ lp lp' → chebValueF lp A b (fun _ => 1) x = .ok v → chebValueF lp' A b (fun _ => 1) x = .ok v' →
    |v' - v| ≤ δ * ∑ j, |x j|

/-- A solver that stops `δ` away from the corner, inside the box if it is wide enough. -/
def insideLP (δ : ℚ) (c lo hi : Fin n → ℚ) (j : Fin n) : ℚ :=
  if 0 ≤ c j then min (lo j + δ) (hi j) else max (hi j - δ) (lo j)

theorem insideLP_near (δ : ℚ) (hδ : 0 ≤ δ) : NearLP δ (cornerLP : (Fin n → ℚ) → (Fin n → ℚ) → (Fin n → ℚ) → Fin n → ℚ) (insideLP δ) := by
  intro c lo hi h j
  have := h j
  unfold cornerLP insideLP
  split_ifs
  · rw [abs_le]
    constructor
    · linarith [le_min (by linarith : lo j ≤ lo j + δ) this]
    · linarith [min_le_left (lo j + δ) (hi j)]
  · rw [abs_le]
    constructor
    · linarith [le_max_left (hi j - δ) (lo j)]
    · linarith [max_le (by linarith : hi j - δ ≤ hi j) this]

/-- The value for one equation with one unknown, without weights, at `x = 1`. -/
theorem chebValueSt_one (st : ℚ → ℚ) (lp : (Fin 1 → ℚ) → (Fin 1 → ℚ) → (Fin 1 → ℚ) → Fin 1 → ℚ) (d : RecData ℚ 1 1)
    (lo hi bm br p : ℚ) (hw : d.weight = fun _ => 1) (h1 : d.infA 0 = fun _ => lo) (h2 : d.supA 0 = fun _ => hi)
    (h3 : d.bm 0 = bm) (h4 : d.br 0 = br) (hp : chebRow lp (fun _ => 1) (fun _ => lo) (fun _ => hi) bm 0 = p) :
    chebValueSt st lp d (fun _ => 1) = .ok (br + |bm - st p|) := by
  simp [chebValueSt, chebArrSt, hw, chebRowSt, h1, h2, h3, h4, hp, dotF, npAmax, List.ofFn_succ]

/-- The row chosen for one unknown with a solver that stops inside the box. -/
theorem chebRow_inside (δ lo hi bm : ℚ) (h0 : 0 ≤ δ) (h1 : δ ≤ hi - lo) :
    chebRow (insideLP δ) (fun _ : Fin 1 => 1) (fun _ => lo) (fun _ => hi) bm 0 =
      if -(hi - δ) - bm ≤ bm - (lo + δ) then lo + δ else hi - δ := by
  have e1 : insideLP δ (fun _ : Fin 1 => (1 : ℚ)) (fun _ => lo) (fun _ => hi) = fun _ => lo + δ := by
    funext j
    rw [insideLP, if_pos (by norm_num), min_eq_left (by linarith)]
  have e2 : insideLP δ (fun _ : Fin 1 => -(1 : ℚ)) (fun _ => lo) (fun _ => hi) = fun _ => hi - δ := by
    funext j
    rw [insideLP, if_neg (by norm_num), max_eq_left (by linarith)]
  simp only [chebRow, e1, e2, dotF, Fin.sum_univ_one, mul_one, mul_neg]
  split_ifs <;> rfl

/-- C139, the truncation of integer arrays: for `[-2,-1] x = 0` with integer endpoints at `x = 1` the value is 2 with the
exact solver and 1 with a solver of any accuracy `0 < δ ≤ 1/2` that stops inside the box. -/
theorem C139_any_accuracy (δ : ℚ) (h0 : 0 < δ) (h1 : δ ≤ 1 / 2) :
    chebValueF cornerLP (fun _ _ => ⟨.classical, .int (-2), .int (-1)⟩ : Fin 1 → Fin 1 → FIv)
      (fun _ => ⟨.classical, .int 0, .int 0⟩) (fun _ => 1) (fun _ => 1) = .ok 2 ∧
    chebValueF (insideLP δ) (fun _ _ => ⟨.classical, .int (-2), .int (-1)⟩ : Fin 1 → Fin 1 → FIv)
      (fun _ => ⟨.classical, .int 0, .int 0⟩) (fun _ => 1) (fun _ => 1) = .ok 1 := by
  constructor
  · decide +kernel
  · have ha : arrA (rowMajor (fun _ _ => ⟨.classical, .int (-2), .int (-1)⟩ : Fin 1 → Fin 1 → FIv)) = .ok [.int (-2)] := by
      decide +kernel
    have hb : arrB (rowMajor (fun _ _ => ⟨.classical, .int (-2), .int (-1)⟩ : Fin 1 → Fin 1 → FIv)) = .ok [.int (-1)] := by
      decide +kernel
    have hc : viewCast [.int (-2)] = fun q => (truncQ q : ℚ) := by
      rw [viewCast, if_pos (by norm_num)]
    have e : truncQ (-2 + δ) = -1 := by
      rw [truncQ, if_neg (by linarith), Int.ceil_eq_iff]
      constructor <;> push_cast <;> linarith
    rw [chebValueF, ha, hb]
    simp only [hc]
    rw [chebValueSt_one _ _ _ (-2) (-1) 0 0 (-2 + δ) rfl (by decide +kernel) (by decide +kernel) (by decide +kernel)
      (by decide +kernel)
      (by rw [chebRow_inside δ (-2) (-1) 0 h0.le (by linarith), if_pos (by linarith)])]
    simp only [e]
    norm_num

/-- C139, the jump of the wrong test: for `[1,3] x = -1` with double endpoints at `x = 1` the value is 2 with the exact
solver.  A solver of any accuracy `0 < δ ≤ 1` that stops outside the box by `δ` on one side makes the test choose the
other row. -/
theorem C139_jump (δ : ℚ) (h0 : 0 < δ) :
    NearLP δ (cornerLP : (Fin 1 → ℚ) → (Fin 1 → ℚ) → (Fin 1 → ℚ) → Fin 1 → ℚ)
      (fun c lo hi j => cornerLP c lo hi j + if 0 ≤ c j then δ else 0) ∧
    chebValueF cornerLP (fun _ _ => ⟨.classical, .dbl (.fin 1), .dbl (.fin 3)⟩ : Fin 1 → Fin 1 → FIv)
      (fun _ => ⟨.classical, .dbl (.fin (-1)), .dbl (.fin (-1))⟩) (fun _ => 1) (fun _ => 1) = .ok 2 ∧
    chebValueF (fun c lo hi j => cornerLP c lo hi j + if 0 ≤ c j then δ else 0)
      (fun _ _ => ⟨.classical, .dbl (.fin 1), .dbl (.fin 3)⟩ : Fin 1 → Fin 1 → FIv)
      (fun _ => ⟨.classical, .dbl (.fin (-1)), .dbl (.fin (-1))⟩) (fun _ => 1) (fun _ => 1) = .ok 4 := by
  refine ⟨?_, by decide +kernel, ?_⟩
  · intro c lo hi _ j
    dsimp only
    split_ifs
    · rw [add_sub_cancel_left, abs_of_pos h0]
    · simpa using h0.le
  · have ha : arrA (rowMajor (fun _ _ => ⟨.classical, .dbl (.fin 1), .dbl (.fin 3)⟩ : Fin 1 → Fin 1 → FIv)) =
        .ok [.dbl (.fin 1)] := by decide +kernel
    have hb : arrB (rowMajor (fun _ _ => ⟨.classical, .dbl (.fin 1), .dbl (.fin 3)⟩ : Fin 1 → Fin 1 → FIv)) =
        .ok [.dbl (.fin 3)] := by decide +kernel
    have hc : viewCast [.dbl (.fin 1)] = id := rfl
    rw [chebValueF, ha, hb]
    simp only [hc]
    rw [chebValueSt_one _ _ _ 1 3 (-1) 0 3 rfl (by decide +kernel) (by decide +kernel) (by decide +kernel)
      (by decide +kernel) (by
        simp only [chebRow, cornerLP, dotF, Fin.sum_univ_one]
        norm_num
        rw [if_neg (not_le.mpr h0)])]
    norm_num

/-- C139 is false of the code. -/
theorem C139_accuracy_false : ¬ C139_statement := by
  intro h
  obtain ⟨h1, h2⟩ := C139_any_accuracy (1 / 2) (by norm_num) (le_refl _)
  have := h 1 1 _ _ _ _ _ (1 / 2) 2 1 (fun _ _ => ⟨rfl, by simp [ivRat, numRat]⟩) (fun _ => ⟨rfl, le_refl _⟩) cornerLP_isBoxLP
    (insideLP_near _ (by norm_num)) h1 h2
  norm_num at this

/-- The choice of the row of the system is stable: the row product is a point, or the midpoint of the right-hand side is
further than `ε` from the switching point of the test. -/
def ChebStable (ε : K) (A : Fin m → Fin n → Iv K) (b : Fin m → Iv K) (x : Fin n → K) (i : Fin m) : Prop :=
  rowRad (A i) x = 0 ∨ ε < |(b i).mid Rnd.exact + rowRad (A i) x|

theorem dotF_near (a a' x : Fin n → K) (δ : K) (h : ∀ j, |a' j - a j| ≤ δ) : |dotF a' x - dotF a x| ≤ δ * ∑ j, |x j| := by
  have e : dotF a' x - dotF a x = ∑ j, (a' j - a j) * x j := by
    rw [dotF, dotF, ← Finset.sum_sub_distrib]
    exact Finset.sum_congr rfl fun j _ => by ring
  rw [e, Finset.mul_sum]
  refine (Finset.abs_sum_le_sum_abs _ _).trans (Finset.sum_le_sum fun j _ => ?_)
  rw [abs_mul]
  exact mul_le_mul_of_nonneg_right (h j) (abs_nonneg _)

/-- Two maxima of lists that are elementwise near. -/
theorem npAmax_near {f g : Fin m → K} {v u ε : K} (h : ∀ i, |g i - f i| ≤ ε) (hv : npAmax (List.ofFn f) = .ok v)
    (hu : npAmax (List.ofFn g) = .ok u) : |u - v| ≤ ε := by
  obtain ⟨v1, v2⟩ := npAmax_spec hv
  obtain ⟨u1, u2⟩ := npAmax_spec hu
  obtain ⟨i, hi⟩ := (List.mem_ofFn' _ _).mp v1
  obtain ⟨k, hk⟩ := (List.mem_ofFn' _ _).mp u1
  have a1 := v2 _ ((List.mem_ofFn' _ _).mpr ⟨k, rfl⟩)
  have a2 := u2 _ ((List.mem_ofFn' _ _).mpr ⟨i, rfl⟩)
  have b1 := abs_le.mp (h i)
  have b2 := abs_le.mp (h k)
  rw [abs_le]
  constructor
  · linarith [b1.1]
  · linarith [b2.2]

/-- C139, partial: if the choice of every row is stable, a solver accurate up to `δ` changes the value by at most
`δ` times the sum of the absolute values of the coordinates and the greatest weight; if the array `A_opt` changes the
stored numbers by at most `τ` (0 for doubles, 1 for integers), by at most `δ + τ` times that.
Missing: the systems at the switching point of the test, and a bound without `τ` for integer endpoints; for both the
property fails. -/
theorem C139_accuracy_partial (hn : 0 < n) (st : K → K) (τ : K) (hst : ∀ q, |st q - q| ≤ τ)
    (lp lp' : (Fin n → K) → (Fin n → K) → (Fin n → K) → Fin n → K)
    (hlp : IsBoxLP lp) (δ : K) (hnear : NearLP δ lp lp') (A : Fin m → Fin n → Iv K) (b : Fin m → Iv K) (w : Fin m → K)
    (x : Fin n → K) (hA : ∀ i j, Ordinary (A i j)) (W : K) (hw : ∀ i, 0 ≤ w i ∧ w i ≤ W)
    (hs : ∀ i, ChebStable (δ * ∑ j, |x j|) A b x i) (v v' : K)
    (hv : chebValue lp A b w x = .ok v) (hv' : chebValueSt st lp' (recData A b w) x = .ok v') :
    |v' - v| ≤ W * ((δ + τ) * ∑ j, |x j|) := by
  refine npAmax_near (f := chebArr lp (recData A b w) x) (g := chebArrSt st lp' (recData A b w) x) (fun i => ?_) hv hv'
  have hS : 0 ≤ ∑ j, |x j| := Finset.sum_nonneg fun j _ => abs_nonneg _
  have hle : ∀ j, (A i j).a ≤ (A i j).b := fun j => (hA i j).2
  have n1 := hnear x (fun j => (A i j).a) (fun j => (A i j).b) hle
  have n2 := hnear (fun j => -(x j)) (fun j => (A i j).a) (fun j => (A i j).b) hle
  have d1 := dotF_near _ _ x δ n1
  have d2 := dotF_near _ _ x δ n2
  obtain ⟨-, -, l3, l4⟩ := lp_bounds lp hlp hn (A i) (hA i) x
  have hr := rowRad_nonneg (hA i) x
  have hneg : ∀ a : Fin n → K, dotF a (fun j => -(x j)) = -(dotF a x) := by
    intro a
    simp [dotF, Finset.sum_neg_distrib]
  -- the exact row and the stored row have products that are near
  have key : |dotF (chebRow lp' x (fun j => (A i j).a) (fun j => (A i j).b) ((b i).mid Rnd.exact)) x -
      dotF (chebRow lp x (fun j => (A i j).a) (fun j => (A i j).b) ((b i).mid Rnd.exact)) x| ≤ δ * ∑ j, |x j| := by
    simp only [chebRow, hneg]
    rw [l3] at d1
    rw [l4] at d2
    obtain ⟨p1, p2⟩ := abs_le.mp d1
    obtain ⟨p3, p4⟩ := abs_le.mp d2
    rcases hs i with h0 | h0
    · rw [h0] at p1 p2 p3 p4 l3 l4
      split_ifs <;> simp only [l3, l4] <;> rw [abs_le] <;> constructor <;> linarith
    · have hiff : (-(dotF (lp' (fun j => -(x j)) (fun j => (A i j).a) (fun j => (A i j).b)) x) - (b i).mid Rnd.exact ≤
          (b i).mid Rnd.exact - dotF (lp' x (fun j => (A i j).a) (fun j => (A i j).b)) x) ↔
          (-(dotF (lp (fun j => -(x j)) (fun j => (A i j).a) (fun j => (A i j).b)) x) - (b i).mid Rnd.exact ≤
          (b i).mid Rnd.exact - dotF (lp x (fun j => (A i j).a) (fun j => (A i j).b)) x) := by
        rw [l3, l4]
        rcases lt_abs.mp h0 with h | h
        · constructor <;> intro _ <;> linarith
        · constructor <;> intro _ <;> linarith
      rw [if_congr hiff rfl rfl]
      split_ifs
      · rw [l3]; exact d1
      · rw [l4]; exact d2
  have key2 : |dotF (chebRowSt st lp' x (fun j => (A i j).a) (fun j => (A i j).b) ((b i).mid Rnd.exact)) x -
      dotF (chebRow lp' x (fun j => (A i j).a) (fun j => (A i j).b) ((b i).mid Rnd.exact)) x| ≤ τ * ∑ j, |x j| :=
    dotF_near _ _ x τ fun j => hst _
  change |w i * ((b i).rad Rnd.exact + |(b i).mid Rnd.exact -
      dotF (chebRowSt st lp' x (fun j => (A i j).a) (fun j => (A i j).b) ((b i).mid Rnd.exact)) x|) -
    w i * ((b i).rad Rnd.exact + |(b i).mid Rnd.exact -
      dotF (chebRow lp x (fun j => (A i j).a) (fun j => (A i j).b) ((b i).mid Rnd.exact)) x|)| ≤ _
  generalize dotF (chebRowSt st lp' x (fun j => (A i j).a) (fun j => (A i j).b) ((b i).mid Rnd.exact)) x = r at *
  generalize dotF (chebRow lp' x (fun j => (A i j).a) (fun j => (A i j).b) ((b i).mid Rnd.exact)) x = p at *
  generalize dotF (chebRow lp x (fun j => (A i j).a) (fun j => (A i j).b) ((b i).mid Rnd.exact)) x = q at *
  have hrq : |r - q| ≤ (δ + τ) * ∑ j, |x j| := by
    have := abs_sub_le r p q
    linarith
  rw [← mul_sub, abs_mul, abs_of_nonneg (hw i).1, add_sub_add_left_eq_sub]
  refine mul_le_mul (hw i).2 ?_ (abs_nonneg _) ((hw i).1.trans (hw i).2)
  refine (abs_abs_sub_abs_le _ _).trans ?_
  rw [sub_sub_sub_cancel_left, abs_sub_comm]
  exact hrq

/-- The hypotheses hold for `[1,3] x = 0` at `x = 1` and `δ = 1/2`: the switching point is `-1`. -/
example : ∀ i, ChebStable (1 / 2 * ∑ j : Fin 1, |(fun _ => 1 : Fin 1 → ℚ) j|)
    (fun _ _ => ⟨.classical, 1, 3⟩ : Fin 1 → Fin 1 → Iv ℚ) (fun _ => ⟨.classical, 0, 0⟩) (fun _ => 1) i := by
  intro i
  right
  revert i
  decide +kernel

/-- C139 for interval objects with right endpoint views: double endpoints lose nothing, integer endpoints at most one
unit per coefficient. -/
theorem C139_objects (hn : 0 < n) (lp lp' : (Fin n → ℚ) → (Fin n → ℚ) → (Fin n → ℚ) → Fin n → ℚ)
    (hlp : IsBoxLP lp) (δ : ℚ) (hnear : NearLP δ lp lp') (A : Fin m → Fin n → FIv) (b : Fin m → FIv) (w : Fin m → ℚ)
    (x : Fin n → ℚ) (hA : ∀ i j, Ordinary (ivRat (A i j))) (W : ℚ) (hw : ∀ i, 0 ≤ w i ∧ w i ≤ W)
    (ha : ∃ l, arrA (rowMajor A) = .ok l ∧ l.map Num.val = (rowMajor A).map fun X => X.a.val)
    (hb : ∃ l, arrB (rowMajor A) = .ok l ∧ l.map Num.val = (rowMajor A).map fun X => X.b.val)
    (hs : ∀ i, ChebStable (δ * ∑ j, |x j|) (fun i j => ivRat (A i j)) (fun i => ivRat (b i)) x i) (v v' : ℚ)
    (hv : chebValue lp (fun i j => ivRat (A i j)) (fun i => ivRat (b i)) w x = .ok v)
    (hv' : chebValueF lp' A b w x = .ok v') :
    |v' - v| ≤ W * ((δ + 1) * ∑ j, |x j|) ∧
    ((∀ i j, ∃ d, (A i j).a = .dbl d) → |v' - v| ≤ W * (δ * ∑ j, |x j|)) := by
  have hd := C32_views_right A b w ha hb
  obtain ⟨la, h1, e1⟩ := ha
  obtain ⟨lb, h2, e2⟩ := hb
  rw [optimizeData, h1, h2] at hd
  simp only [Except.ok.injEq] at hd
  rw [chebValueF, h1, h2] at hv'
  simp only [hd] at hv'
  constructor
  · refine C139_accuracy_partial hn (viewCast la) 1 ?_ lp lp' hlp δ hnear _ _ w x hA W hw hs v v' hv hv'
    intro q
    unfold viewCast
    split
    · split_ifs
      · unfold truncQ
        dsimp only
        split_ifs
        · have := Int.floor_le q
          have := Int.lt_floor_add_one q
          rw [abs_le]
          constructor <;> linarith
        · have := Int.le_ceil q
          have := Int.ceil_lt_add_one q
          rw [abs_le]
          constructor <;> linarith
      · simp
    · simp
  · intro hdbl
    have hid : viewCast la = id := by
      have hall : ∀ X ∈ (rowMajor A).map FIv.a, ∃ d, X = .dbl d := by
        intro X hX
        obtain ⟨Y, hY, rfl⟩ := List.mem_map.mp hX
        obtain ⟨k, rfl⟩ := (List.mem_ofFn' _ _).mp hY
        exact hdbl _ _
      rw [arrA] at h1
      cases hl : (rowMajor A).map FIv.a with
      | nil => rw [hl] at h1; cases h1
      | cons y ys =>
        obtain ⟨d, rfl⟩ := hall y (by rw [hl]; simp)
        rw [hl] at h1
        simp only [npVectorizeNum, List.mapM_cons] at h1
        cases hys : ys.mapM fun v => v.toDbl.map Num.dbl with
        | error e => rw [hys] at h1; cases h1
        | ok l =>
          rw [hys] at h1
          cases h1
          rfl
    rw [hid] at hv'
    have := C139_accuracy_partial hn id 0 (fun q => by simp) lp lp' hlp δ hnear _ _ w x hA W hw hs v v' hv hv'
    rwa [add_zero] at this

/-- `numpy.argmin` and `numpy.argmax` of an empty array raise `ValueError`. -/
example : npArgmin (fun _ : Fin 0 => (0 : ℚ)) = .error .valueError ∧
    npArgmax (fun _ : Fin 0 => (0 : ℚ)) = .error .valueError := ⟨rfl, rfl⟩

end IntvalPy
