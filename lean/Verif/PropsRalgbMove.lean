import Verif.PropsRalgbStep

/-!
# C112: ralgb5 and changes of coordinates, of units and of the objective

Moving the space (shifts, rotations, reflections, renumbering of the unknowns), changing the unit of the unknowns, and
scaling or shifting the objective move the evaluated points in the same way.
-/

set_option autoImplicit false
set_option linter.unusedSectionVars false

namespace IntvalPy
open Spec

variable {K : Type*} [Field K] [LinearOrder K] [IsStrictOrderedRing K] {n : ℕ}

/-- `Q` is linear and keeps scalar products: a rotation, a reflection or a renumbering of the unknowns. -/
structure Rigid (Q : (Fin n → K) → (Fin n → K)) : Prop where
  add : ∀ v w i, Q (fun j => v j + w j) i = Q v i + Q w i
  smul : ∀ (c : K) v i, Q (fun j => c * v j) i = c * Q v i
  dot : ∀ v w, ∑ i, Q v i * Q w i = ∑ i, v i * w i

/-- The point `x` in the new coordinates: turned by `Q`, measured in another unit and shifted. -/
def newPoint (Q : (Fin n → K) → (Fin n → K)) (c : K) (t : Fin n → K) (x : Fin n → K) : Fin n → K :=
  fun i => c * Q x i + t i

/-- The objective `calcfg'` is `a * f + β` in the new coordinates, with the gradient that goes with it. -/
def SameObjective (Q : (Fin n → K) → (Fin n → K)) (c a β : K) (t : Fin n → K)
    (calcfg calcfg' : (Fin n → K) → K × (Fin n → K)) : Prop :=
  ∀ x, (calcfg' (newPoint Q c t x)).1 = a * (calcfg x).1 + β ∧
    ∀ i, (calcfg' (newPoint Q c t x)).2 i = a / c * Q (calcfg x).2 i

/-- The parameters in the new units. -/
def RalgPar.inUnits (P : RalgPar K n) (c a : K) : RalgPar K n :=
  { P with tolx := c * P.tolx, tolg := a / c * P.tolg, h0 := c * P.h0 }

theorem Rigid.sub {Q : (Fin n → K) → (Fin n → K)} (hQ : Rigid Q) (v w : Fin n → K) (i : Fin n) :
    Q (fun j => v j - w j) i = Q v i - Q w i := by
  have e : (fun j => v j - w j) = fun j => v j + (fun j => -1 * w j) j := by funext j; ring
  rw [e, hQ.add, hQ.smul]
  ring

theorem Rigid.zero_iff {Q : (Fin n → K) → (Fin n → K)} (hQ : Rigid Q) (v : Fin n → K) : Q v = 0 ↔ v = 0 := by
  constructor
  · intro h
    have := hQ.dot v v
    rw [h] at this
    simp only [Pi.zero_apply, mul_zero, Finset.sum_const_zero] at this
    funext i
    exact mul_self_eq_zero.1 ((Finset.sum_eq_zero_iff_of_nonneg (fun i _ => mul_self_nonneg (v i))).1 this.symm i
      (Finset.mem_univ i))
  · rintro rfl
    funext i
    have h := hQ.smul 0 0 i
    have e : (fun j => (0 : K) * (0 : Fin n → K) j) = 0 := by funext j; simp
    rw [e, zero_mul] at h
    exact h

theorem Euclidean.inUnits {P : RalgPar K n} (hE : Euclidean P) (c a : K) : Euclidean (P.inUnits c a) :=
  ⟨hE.nonneg, hE.sq, hE.unit⟩

theorem Positive.inUnits {P : RalgPar K n} (hP : Positive P) {c a : K} (hc : 0 < c) (ha : 0 < a) :
    Positive (P.inUnits c a) :=
  ⟨mul_pos (div_pos ha hc) hP.tolg, hP.alpha, mul_pos hc hP.h0, hP.q1, hP.q2⟩

theorem Euclidean.norm_rigid {P : RalgPar K n} (hE : Euclidean P) {Q : (Fin n → K) → (Fin n → K)} (hQ : Rigid Q)
    {k : K} (hk : 0 < k) (v : Fin n → K) : P.norm (fun i => k * Q v i) = k * P.norm v := by
  have h1 := hE.sq fun i => k * Q v i
  have h2 := hE.sq v
  have h3 : ∑ i, (k * Q v i) * (k * Q v i) = k * k * ∑ i, v i * v i := by
    rw [← hQ.dot v v, Finset.mul_sum]
    exact Finset.sum_congr rfl fun i _ => by ring
  refine (mul_self_inj (hE.nonneg _) (mul_nonneg hk.le (hE.nonneg v))).1 ?_
  rw [h1, h3, ← h2]
  ring

theorem Euclidean.unit_rigid {P : RalgPar K n} (hE : Euclidean P) {Q : (Fin n → K) → (Fin n → K)} (hQ : Rigid Q)
    {k : K} (hk : 0 < k) {v : Fin n → K} (hv : v ≠ 0) : P.normalize (fun i => k * Q v i) = Q (P.normalize v) := by
  have hp := hE.norm_pos hv
  have hne : (fun i => k * Q v i) ≠ 0 := by
    intro h
    apply hv
    rw [← hQ.zero_iff]
    funext i
    have := congrFun h i
    exact (mul_eq_zero.1 this).resolve_left hk.ne'
  funext i
  rw [hE.unit _ hne, hE.norm_rigid hQ hk]
  have e : P.normalize v = fun j => 1 / P.norm v * v j := by
    funext j
    rw [hE.unit v hv]
    ring
  rw [e, hQ.smul]
  field_simp

/-- The matrices act in the same way in the two coordinate systems. -/
structure SameMat (Q : (Fin n → K) → (Fin n → K)) (B B' : Fin n → Fin n → K) : Prop where
  vec : ∀ v, matVecF B' (Q v) = Q (matVecF B v)
  tvec : ∀ v, matTVec B' (Q v) = Q (matTVec B v)

theorem matVecF_outer (B : Fin n → Fin n → K) (w : K) (u xi v : Fin n → K) (i : Fin n) :
    matVecF (fun i j => B i j + w * (u i * xi j)) v i = matVecF B v i + w * (∑ j, xi j * v j) * u i := by
  simp only [matVecF]
  rw [Finset.mul_sum, Finset.sum_mul, ← Finset.sum_add_distrib]
  exact Finset.sum_congr rfl fun j _ => by ring

theorem matTVec_outer (B : Fin n → Fin n → K) (w : K) (u xi v : Fin n → K) (i : Fin n) :
    matTVec (fun i j => B i j + w * (u i * xi j)) v i = matTVec B v i + w * (∑ j, u j * v j) * xi i := by
  simp only [matTVec]
  rw [Finset.mul_sum, Finset.sum_mul, ← Finset.sum_add_distrib]
  exact Finset.sum_congr rfl fun j _ => by ring

theorem SameMat.outer {Q : (Fin n → K) → (Fin n → K)} (hQ : Rigid Q) {B B' : Fin n → Fin n → K} (h : SameMat Q B B')
    (w : K) (xi : Fin n → K) :
    SameMat Q (fun i j => B i j + w * (matVecF B xi i * xi j))
      (fun i j => B' i j + w * (matVecF B' (Q xi) i * Q xi j)) := by
  constructor
  · intro v
    funext i
    rw [matVecF_outer, h.vec, h.vec, hQ.dot]
    have e : matVecF (fun i j => B i j + w * (matVecF B xi i * xi j)) v =
        fun j => matVecF B v j + (fun j => (w * ∑ j, xi j * v j) * matVecF B xi j) j := by
      funext j
      rw [matVecF_outer]
    rw [e, hQ.add, hQ.smul]
  · intro v
    funext i
    rw [matTVec_outer, h.tvec, h.vec, hQ.dot]
    have e : matTVec (fun i j => B i j + w * (matVecF B xi i * xi j)) v =
        fun j => matTVec B v j + (fun j => (w * ∑ j, matVecF B xi j * v j) * xi j) j := by
      funext j
      rw [matTVec_outer]
    rw [e, hQ.add, hQ.smul]

theorem SameMat.scaled {Q : (Fin n → K) → (Fin n → K)} (hQ : Rigid Q) {B B' : Fin n → Fin n → K} (h : SameMat Q B B')
    (k : K) (v : Fin n → K) : matTVec B' (fun i => k * Q v i) = fun i => k * Q (matTVec B v) i := by
  have e : (fun i => k * Q v i) = Q (fun i => k * v i) := by funext i; rw [hQ.smul]
  rw [e, h.tvec]
  funext i
  have e2 : matTVec B (fun i => k * v i) = fun j => k * matTVec B v j := by
    funext j
    simp only [matTVec, Finset.mul_sum]
    exact Finset.sum_congr rfl fun l _ => by ring
  rw [e2, hQ.smul]

theorem ident_same (Q : (Fin n → K) → (Fin n → K)) :
    SameMat Q (fun i j : Fin n => if i = j then (1 : K) else 0) (fun i j : Fin n => if i = j then (1 : K) else 0) := by
  have e1 : ∀ v : Fin n → K, matVecF (fun i j : Fin n => if i = j then (1 : K) else 0) v = v := by
    intro v; funext i; simp [matVecF]
  have e2 : ∀ v : Fin n → K, matTVec (fun i j : Fin n => if i = j then (1 : K) else 0) v = v := by
    intro v; funext i; simp [matTVec]
  exact ⟨fun v => by rw [e1, e1], fun v => by rw [e2, e2]⟩

/-- The histories agree, or the test of the function value is switched off. -/
def SameHistory (P : RalgPar K n) (a β : K) (vf vf' : List K) : Prop :=
  (a = 1 ∧ β = 0 ∧ vf' = vf) ∨
    (P.tolf ≤ 0 ∧ (vf.length = P.nsims ∧ ∀ v ∈ vf, 0 ≤ v) ∧ vf'.length = P.nsims ∧ ∀ v ∈ vf', 0 ≤ v)

/-- The history after an iteration, from the value before it and the value after it. -/
def nextHistory (P : RalgPar K n) (vf : List K) (fr0 fr1 : K) : List K :=
  (npRoll (vf.set (P.nsims - 1) fr0)).set 0 |fr1 - (npRoll (vf.set (P.nsims - 1) fr0)).headD 0|

theorem npRoll_length (l : List K) : (npRoll l).length = l.length := by
  unfold npRoll
  cases hl : l.getLast? with
  | none => rw [List.getLast?_eq_none_iff] at hl; rw [hl]
  | some a =>
      have : l ≠ [] := by rintro h; rw [h] at hl; cases hl
      have := List.length_pos_iff.2 this
      simp only [List.length_cons, List.length_dropLast]
      omega

theorem nextHistory_nonneg (P : RalgPar K n) {vf : List K} (hlen : vf.length = P.nsims) (h : ∀ v ∈ vf, 0 ≤ v)
    (fr0 fr1 : K) : (nextHistory P vf fr0 fr1).length = P.nsims ∧ ∀ v ∈ nextHistory P vf fr0 fr1, 0 ≤ v := by
  have hdrop : ∀ v ∈ (vf.set (P.nsims - 1) fr0).dropLast, 0 ≤ v := by
    rw [List.dropLast_eq_take]
    intro v hv
    rw [List.length_set, hlen, List.take_set_of_le (le_refl _)] at hv
    exact h v (List.mem_of_mem_take hv)
  refine ⟨?_, roll_nonneg hdrop fr1⟩
  have hlen1 : (vf.set (P.nsims - 1) fr0).length = P.nsims := by simpa using hlen
  rw [nextHistory, List.length_set, npRoll_length, hlen1]

theorem SameHistory.next {P : RalgPar K n} {a β : K} {vf vf' : List K} (h : SameHistory P a β vf vf') (fr0 fr1 : K) :
    SameHistory P a β (nextHistory P vf fr0 fr1) (nextHistory P vf' (a * fr0 + β) (a * fr1 + β)) ∧
    ((if 1 < |fr1| then (nextHistory P vf fr0 fr1).sum / |fr1| else (nextHistory P vf fr0 fr1).sum) < P.tolf ↔
      (if 1 < |a * fr1 + β| then (nextHistory P vf' (a * fr0 + β) (a * fr1 + β)).sum / |a * fr1 + β|
        else (nextHistory P vf' (a * fr0 + β) (a * fr1 + β)).sum) < P.tolf) := by
  rcases h with ⟨rfl, rfl, rfl⟩ | ⟨h1, ⟨h2, h3⟩, h4, h5⟩
  · rw [one_mul, one_mul, add_zero, add_zero]
    exact ⟨Or.inl ⟨rfl, rfl, rfl⟩, Iff.rfl⟩
  · have a1 := nextHistory_nonneg P h2 h3 fr0 fr1
    have a2 := nextHistory_nonneg P h4 h5 (a * fr0 + β) (a * fr1 + β)
    refine ⟨Or.inr ⟨h1, a1, a2⟩, ?_⟩
    have s1 := List.sum_nonneg a1.2
    have s2 := List.sum_nonneg a2.2
    have n1 : ¬ (if 1 < |fr1| then (nextHistory P vf fr0 fr1).sum / |fr1| else (nextHistory P vf fr0 fr1).sum)
        < P.tolf := by
      split_ifs
      · exact not_lt.2 (h1.trans (div_nonneg s1 (abs_nonneg _)))
      · exact not_lt.2 (h1.trans s1)
    have n2 : ¬ (if 1 < |a * fr1 + β| then (nextHistory P vf' (a * fr0 + β) (a * fr1 + β)).sum / |a * fr1 + β|
        else (nextHistory P vf' (a * fr0 + β) (a * fr1 + β)).sum) < P.tolf := by
      split_ifs
      · exact not_lt.2 (h1.trans (div_nonneg s2 (abs_nonneg _)))
      · exact not_lt.2 (h1.trans s2)
    exact ⟨fun h => absurd h n1, fun h => absurd h n2⟩

/-- The states of the two runs. -/
structure SameState (P : RalgPar K n) (Q : (Fin n → K) → (Fin n → K)) (c a β : K) (t : Fin n → K) (s s' : RalgSt K n) :
    Prop where
  hs : s'.hs = c * s.hs
  B : SameMat Q s.B s'.B
  x : s'.x = newPoint Q c t s.x
  xr : s'.xr = newPoint Q c t s.xr
  fr : s'.fr = a * s.fr + β
  g0 : s'.g0 = fun i => a / c * Q s.g0 i
  nit : s'.nit = s.nit
  ncalls : s'.ncalls = s.ncalls
  evals : s'.evals = s.evals.map (newPoint Q c t)

/-- The outcomes of the two runs. -/
structure SameOut (Q : (Fin n → K) → (Fin n → K)) (c a β : K) (t : Fin n → K) (o o' : RalgOut K n) : Prop where
  xr : o'.xr = newPoint Q c t o.xr
  fr : o'.fr = a * o.fr + β
  nit : o'.nit = o.nit
  ncalls : o'.ncalls = o.ncalls
  ccode : o'.ccode = o.ccode
  evals : o'.evals = o.evals.map (newPoint Q c t)

theorem SameState.out {P : RalgPar K n} {Q : (Fin n → K) → (Fin n → K)} {c a β : K} {t : Fin n → K} {s s' : RalgSt K n}
    (h : SameState P Q c a β t s s') (k : ℕ) : SameOut Q c a β t (s.out k) (s'.out k) :=
  ⟨h.xr, h.fr, h.nit, h.ncalls, rfl, h.evals⟩

/-- The searches of the two runs. -/
def SameLine (P : RalgPar K n) (Q : (Fin n → K) → (Fin n → K)) (c a β : K) (t : Fin n → K) (vf vf' : List K) :
    Line K n → Line K n → Prop
  | .ret o, .ret o' => SameOut Q c a β t o o'
  | .done s g1 dl cal, .done s' g1' dl' cal' => SameState P Q c a β t s s' ∧ s.vf = vf ∧ s'.vf = vf' ∧
      g1' = (fun i => a / c * Q g1 i) ∧ dl' = c * dl ∧ cal' = cal
  | _, _ => False

theorem lineSearch_move {P : RalgPar K n} (hE : Euclidean P) {Q : (Fin n → K) → (Fin n → K)}
    (hQ : Rigid Q) {c a β : K} (hc : 0 < c) (ha : 0 < a) {t : Fin n → K} {calcfg calcfg' : (Fin n → K) → K × (Fin n → K)}
    (hf : SameObjective Q c a β t calcfg calcfg') (dx : Fin n → K) (normdx : K) (vf vf' : List K) (fuel cal : ℕ)
    (deltax deltax' : K) (g1 g1' : Fin n → K) (d d' : K) (s s' : RalgSt K n) (hs : SameState P Q c a β t s s')
    (hvf : s.vf = vf) (hvf' : s'.vf = vf') (hdl : deltax' = c * deltax) (hg1 : g1' = fun i => a / c * Q g1 i)
    (hd : 0 < d' ↔ 0 < d) :
    SameLine P Q c a β t vf vf' (lineSearch P calcfg dx normdx fuel cal deltax g1 d s)
      (lineSearch (P.inUnits c a) calcfg' (Q dx) normdx fuel cal deltax' g1' d' s') := by
  induction fuel generalizing cal deltax deltax' g1 g1' d d' s s' with
  | zero =>
    rw [lineSearch, lineSearch]
    exact ⟨hs, hvf, hvf', hg1, hdl, rfl⟩
  | succ fuel ih =>
    rw [lineSearch, lineSearch]
    by_cases hd0 : 0 < d
    swap
    · rw [if_neg hd0, if_neg (fun h => hd0 (hd.1 h))]
      exact ⟨hs, hvf, hvf', hg1, hdl, rfl⟩
    rw [if_pos hd0, if_pos (hd.2 hd0)]
    simp only
    set x : Fin n → K := fun i => s.x i - s.hs * dx i with hx
    have ex : (fun i => s'.x i - s'.hs * Q dx i) = newPoint Q c t x := by
      funext i
      rw [hs.x, hs.hs, hx]
      simp only [newPoint]
      have e : (fun i => s.x i - s.hs * dx i) = fun i => s.x i - (fun j => s.hs * dx j) i := rfl
      rw [e, hQ.sub, hQ.smul]
      ring
    rw [ex]
    obtain ⟨f1, f2⟩ := hf x
    have f2' : (calcfg' (newPoint Q c t x)).2 = fun i => a / c * Q (calcfg x).2 i := funext f2
    have hac : 0 < a / c := div_pos ha hc
    have hnorm : (P.inUnits c a).norm (calcfg' (newPoint Q c t x)).2 < (P.inUnits c a).tolg ↔
        P.norm (calcfg x).2 < P.tolg := by
      change P.norm (calcfg' (newPoint Q c t x)).2 < a / c * P.tolg ↔ _
      rw [f2', hE.norm_rigid hQ hac]
      exact mul_lt_mul_iff_right₀ hac
    have hlt : (calcfg' (newPoint Q c t x)).1 < s'.fr ↔ (calcfg x).1 < s.fr := by
      rw [f1, hs.fr, add_lt_add_iff_right]
      exact mul_lt_mul_iff_right₀ ha
    have hdot : 0 < dotF (Q dx) (calcfg' (newPoint Q c t x)).2 ↔ 0 < dotF dx (calcfg x).2 := by
      have e : dotF (Q dx) (calcfg' (newPoint Q c t x)).2 = a / c * dotF dx (calcfg x).2 := by
        rw [f2', dotF, dotF, ← hQ.dot dx, Finset.mul_sum]
        exact Finset.sum_congr rfl fun i _ => by ring
      rw [e]
      exact mul_pos_iff_of_pos_left hac
    have hdl2 : deltax' + s'.hs * normdx = c * (deltax + s.hs * normdx) := by rw [hdl, hs.hs]; ring
    set r := calcfg x with hr
    set r' := calcfg' (newPoint Q c t x) with hr'
    set s2 : RalgSt K n := if r.1 < s.fr then
      { s with x := x, ncalls := s.ncalls + 1, evals := s.evals ++ [x], fr := r.1, xr := x } else
      { s with x := x, ncalls := s.ncalls + 1, evals := s.evals ++ [x] } with hs2
    set s2' : RalgSt K n := if r'.1 < s'.fr then
      { s' with x := newPoint Q c t x, ncalls := s'.ncalls + 1, evals := s'.evals ++ [newPoint Q c t x], fr := r'.1,
                xr := newPoint Q c t x } else
      { s' with x := newPoint Q c t x, ncalls := s'.ncalls + 1, evals := s'.evals ++ [newPoint Q c t x] } with hs2'
    have hst : SameState P Q c a β t s2 s2' ∧ s2.vf = vf ∧ s2'.vf = vf' := by
      rw [hs2, hs2']
      by_cases h : r.1 < s.fr
      · rw [if_pos h, if_pos (hlt.2 h)]
        exact ⟨⟨hs.hs, hs.B, rfl, rfl, f1, hs.g0, hs.nit, by simp [hs.ncalls], by simp [hs.evals]⟩, hvf, hvf'⟩
      · rw [if_neg h, if_neg fun h' => h (hlt.1 h')]
        exact ⟨⟨hs.hs, hs.B, rfl, hs.xr, hs.fr, hs.g0, hs.nit, by simp [hs.ncalls], by simp [hs.evals]⟩, hvf, hvf'⟩
    by_cases hg : P.norm r.2 < P.tolg
    · rw [if_pos hg, if_pos (hnorm.2 hg)]
      exact hst.1.out 2
    rw [if_neg hg, if_neg fun h => hg (hnorm.1 h)]
    by_cases hc3 : cal % P.nh = 0
    · have hc3' : cal % (P.inUnits c a).nh = 0 := hc3
      rw [if_pos hc3, if_pos hc3']
      refine ih _ _ _ _ _ _ _ { s2 with hs := s2.hs * P.q2 } { s2' with hs := s2'.hs * P.q2 }
        ⟨?_, hst.1.B, hst.1.x, hst.1.xr, hst.1.fr, hst.1.g0, hst.1.nit, hst.1.ncalls, hst.1.evals⟩ hst.2.1 hst.2.2 hdl2
        f2' hdot
      simp only [hst.1.hs]
      ring
    · have hc3' : ¬ cal % (P.inUnits c a).nh = 0 := hc3
      rw [if_neg hc3, if_neg hc3']
      exact ih _ _ _ _ _ _ _ _ _ hst.1 hst.2.1 hst.2.2 hdl2 f2' hdot

theorem ralgLoop_move {P : RalgPar K n} (hE : Euclidean P) (hP : Positive P) {Q : (Fin n → K) → (Fin n → K)}
    (hQ : Rigid Q) {c a β : K} (hc : 0 < c) (ha : 0 < a) {t : Fin n → K} {calcfg calcfg' : (Fin n → K) → K × (Fin n → K)}
    (hf : SameObjective Q c a β t calcfg calcfg') (k : ℕ) (s s' : RalgSt K n) (hI : LoopInv P calcfg s)
    (hs : SameState P Q c a β t s s') (hh : SameHistory P a β s.vf s'.vf) :
    SameOut Q c a β t (ralgLoop P calcfg k s) (ralgLoop (P.inUnits c a) calcfg' k s') := by
  induction k generalizing s s' with
  | zero => rw [ralgLoop, ralgLoop]; exact hs.out 4
  | succ k ih =>
    rw [ralgLoop, ralgLoop]
    simp only
    have hac : 0 < a / c := div_pos ha hc
    have hg0 : s.g0 ≠ 0 := by
      intro h
      apply hI.big
      rw [h, hE.norm_zero]
      exact hP.tolg
    have hpos := direction_pos hE hI.reg hg0
    have hu : matTVec s.B s.g0 ≠ 0 := fun h => hg0 (hI.reg _ h)
    have eg : matTVec s'.B s'.g0 = fun i => a / c * Q (matTVec s.B s.g0) i := by
      rw [hs.g0]; exact hs.B.scaled hQ _ _
    have ed : matVecF s'.B ((P.inUnits c a).normalize (matTVec s'.B s'.g0)) =
        Q (matVecF s.B (P.normalize (matTVec s.B s.g0))) := by
      rw [eg]
      change matVecF s'.B (P.normalize _) = _
      rw [hE.unit_rigid hQ hac hu, hs.B.vec]
    rw [ed]
    set dx := matVecF s.B (P.normalize (matTVec s.B s.g0)) with hdx
    have en : (P.inUnits c a).norm (Q dx) = P.norm dx := by
      have := hE.norm_rigid hQ one_pos dx
      simp only [one_mul] at this
      exact this
    rw [en]
    have hline := lineSearch_steps hP calcfg dx (P.norm dx) s.x s.B s.g0 501 0 0 (matTVec s.B s.g0) 1
      { s with vf := s.vf.set (P.nsims - 1) s.fr } ⟨hI.step.hs, hI.step.last, hI.step.steps⟩ rfl rfl rfl
      (fun _ => by rw [← hI.grad]; exact hpos) (fun h => absurd ⟨one_pos, by omega⟩ h)
      ⟨0, le_refl _, fun i => by simp, by simp⟩
    have hmove := lineSearch_move hE hQ hc ha hf dx (P.norm dx) (s.vf.set (P.nsims - 1) s.fr)
      (s'.vf.set ((P.inUnits c a).nsims - 1) s'.fr) 501 0 0 0 (matTVec s.B s.g0) (matTVec s'.B s'.g0) 1 1
      { s with vf := s.vf.set (P.nsims - 1) s.fr } { s' with vf := s'.vf.set ((P.inUnits c a).nsims - 1) s'.fr }
      ⟨hs.hs, hs.B, hs.x, hs.xr, hs.fr, hs.g0, hs.nit, hs.ncalls, hs.evals⟩ rfl rfl (by simp) eg Iff.rfl
    generalize lineSearch P calcfg dx (P.norm dx) 501 0 0 (matTVec s.B s.g0) 1
      { s with vf := s.vf.set (P.nsims - 1) s.fr } = L at hline hmove ⊢
    generalize lineSearch (P.inUnits c a) calcfg' (Q dx) (P.norm dx) 501 0 0 (matTVec s'.B s'.g0) 1
      { s' with vf := s'.vf.set ((P.inUnits c a).nsims - 1) s'.fr } = L' at hmove ⊢
    cases L with
    | ret o =>
      cases L' with
      | ret o' => exact hmove
      | done _ _ _ _ => exact hmove.elim
    | done s1 g1 deltax cal =>
      cases L' with
      | ret _ => exact hmove.elim
      | done s1' g1' deltax' cal' =>
      obtain ⟨m1, m2, m3, m4, m5, rfl⟩ := hmove
      obtain ⟨h1, h2, h3, h4, h5, h6, _⟩ := hline
      simp only
      by_cases c5 : 500 < cal'
      · rw [if_pos c5, if_pos c5]; exact m1.out 5
      rw [if_neg c5, if_neg c5]
      have h7 : dotF dx g1 ≤ 0 := h6.resolve_left c5
      have hdx3 : deltax' < (P.inUnits c a).tolx ↔ deltax < P.tolx := by
        rw [m5]
        exact mul_lt_mul_iff_right₀ hc
      have key : ∀ s2 s2' : RalgSt K n, SameState P Q c a β t s2 s2' → s2.vf = s1.vf → s2'.vf = s1'.vf → 0 < s2.hs →
          s2.x = s1.x → s2.evals = s1.evals → s2.B = s1.B → s2.g0 = s1.g0 →
          SameOut Q c a β t
            (if deltax < P.tolx then s2.out 3
            else
              if (if 1 < |s2.fr| then
                  ((npRoll s2.vf).set 0 |s2.fr - (npRoll s2.vf).headD 0|).sum / |s2.fr|
                else ((npRoll s2.vf).set 0 |s2.fr - (npRoll s2.vf).headD 0|).sum) < P.tolf then
                RalgSt.out { s2 with
                  B := fun i j => s2.B i j + (1 / P.alpha - 1) *
                    (matVecF s2.B (P.normalize (matTVec s2.B fun i => g1 i - s2.g0 i)) i *
                      P.normalize (matTVec s2.B fun i => g1 i - s2.g0 i) j)
                  g0 := g1
                  vf := (npRoll s2.vf).set 0 |s2.fr - (npRoll s2.vf).headD 0| } 1
              else ralgLoop P calcfg k { s2 with
                  B := fun i j => s2.B i j + (1 / P.alpha - 1) *
                    (matVecF s2.B (P.normalize (matTVec s2.B fun i => g1 i - s2.g0 i)) i *
                      P.normalize (matTVec s2.B fun i => g1 i - s2.g0 i) j)
                  g0 := g1
                  vf := (npRoll s2.vf).set 0 |s2.fr - (npRoll s2.vf).headD 0|
                  nit := s2.nit + 1 })
            (if deltax' < (P.inUnits c a).tolx then s2'.out 3
            else
              if (if 1 < |s2'.fr| then
                  ((npRoll s2'.vf).set 0 |s2'.fr - (npRoll s2'.vf).headD 0|).sum / |s2'.fr|
                else ((npRoll s2'.vf).set 0 |s2'.fr - (npRoll s2'.vf).headD 0|).sum) < (P.inUnits c a).tolf then
                RalgSt.out { s2' with
                  B := fun i j => s2'.B i j + (1 / (P.inUnits c a).alpha - 1) *
                    (matVecF s2'.B ((P.inUnits c a).normalize (matTVec s2'.B fun i => g1' i - s2'.g0 i)) i *
                      (P.inUnits c a).normalize (matTVec s2'.B fun i => g1' i - s2'.g0 i) j)
                  g0 := g1'
                  vf := (npRoll s2'.vf).set 0 |s2'.fr - (npRoll s2'.vf).headD 0| } 1
              else ralgLoop (P.inUnits c a) calcfg' k { s2' with
                  B := fun i j => s2'.B i j + (1 / (P.inUnits c a).alpha - 1) *
                    (matVecF s2'.B ((P.inUnits c a).normalize (matTVec s2'.B fun i => g1' i - s2'.g0 i)) i *
                      (P.inUnits c a).normalize (matTVec s2'.B fun i => g1' i - s2'.g0 i) j)
                  g0 := g1'
                  vf := (npRoll s2'.vf).set 0 |s2'.fr - (npRoll s2'.vf).headD 0|
                  nit := s2'.nit + 1 }) := by
        intro s2 s2' k1 k2 k3 k4 k5 k6 k7 k8
        by_cases c3 : deltax < P.tolx
        · rw [if_pos c3, if_pos (hdx3.2 c3)]
          exact k1.out 3
        rw [if_neg c3, if_neg fun h => c3 (hdx3.1 h)]
        have hB2 : NonSing s2.B := by rw [k7, h2]; exact hI.reg
        have hdg : (matTVec s2.B fun i => g1 i - s2.g0 i) ≠ 0 := by
          intro h0
          have e := hB2 _ h0
          have e1 : g1 = s.g0 := by
            funext i
            have := congrFun e i
            rw [k8, h3] at this
            simpa [sub_eq_zero] using this
          rw [e1] at h7
          exact absurd hpos (not_lt.2 h7)
        have edg : (matTVec s2'.B fun i => g1' i - s2'.g0 i) =
            fun i => a / c * Q (matTVec s2.B fun i => g1 i - s2.g0 i) i := by
          rw [← k1.B.scaled hQ]
          congr 1
          funext i
          rw [m4, k1.g0, hQ.sub]
          ring
        have exi : (P.inUnits c a).normalize (matTVec s2'.B fun i => g1' i - s2'.g0 i) =
            Q (P.normalize (matTVec s2.B fun i => g1 i - s2.g0 i)) := by
          rw [edg]
          exact hE.unit_rigid hQ hac hdg
        have eh := hh.next s.fr s2.fr
        have ev : (npRoll s2.vf).set 0 |s2.fr - (npRoll s2.vf).headD 0| = nextHistory P s.vf s.fr s2.fr := by
          rw [k2, m2]; rfl
        have ev' : (npRoll s2'.vf).set 0 |s2'.fr - (npRoll s2'.vf).headD 0| =
            nextHistory P s'.vf (a * s.fr + β) (a * s2.fr + β) := by
          rw [k3, m3, k1.fr, ← hs.fr]; rfl
        rw [ev, ev', exi]
        have hB3 : SameMat Q (fun i j => s2.B i j + (1 / P.alpha - 1) *
              (matVecF s2.B (P.normalize (matTVec s2.B fun i => g1 i - s2.g0 i)) i *
                P.normalize (matTVec s2.B fun i => g1 i - s2.g0 i) j))
            (fun i j => s2'.B i j + (1 / (P.inUnits c a).alpha - 1) *
              (matVecF s2'.B (Q (P.normalize (matTVec s2.B fun i => g1 i - s2.g0 i))) i *
                Q (P.normalize (matTVec s2.B fun i => g1 i - s2.g0 i)) j)) :=
          k1.B.outer hQ (1 / P.alpha - 1) _
        have hiff := eh.2
        rw [← k1.fr] at hiff
        by_cases cf : (if 1 < |s2.fr| then (nextHistory P s.vf s.fr s2.fr).sum / |s2.fr|
            else (nextHistory P s.vf s.fr s2.fr).sum) < P.tolf
        · have cf' := hiff.1 cf
          rw [k1.fr] at cf'
          rw [show (P.inUnits c a).tolf = P.tolf from rfl, k1.fr, if_pos cf, if_pos cf']
          exact ⟨k1.xr, rfl, k1.nit, k1.ncalls, rfl, k1.evals⟩
        · have cf' := fun h => cf (hiff.2 h)
          rw [k1.fr] at cf'
          rw [show (P.inUnits c a).tolf = P.tolf from rfl, k1.fr, if_neg cf, if_neg cf']
          refine ih _ _ ⟨⟨k4, ?_, ?_⟩, ?_, h5, ?_⟩ ⟨k1.hs, hB3, k1.x, k1.xr, rfl, m4, by simp [k1.nit], k1.ncalls,
            k1.evals⟩ eh.1
          · change s2.evals.getLast? = some s2.x
            rw [k6, k5]; exact h1.last
          · change AgainstGradient calcfg s2.evals
            rw [k6]; exact h1.steps
          · change g1 = (calcfg s2.x).2
            rw [k5]; exact h4
          · exact dilation_nonsing hB2 (hE.unit_sq hdg) hP.alpha
      by_cases c1 : cal' = 1
      · simp only [if_pos c1]
        refine key { s1 with hs := s1.hs * P.q1 } { s1' with hs := s1'.hs * P.q1 } ⟨?_, m1.B, m1.x, m1.xr, m1.fr, m1.g0,
          m1.nit, m1.ncalls, m1.evals⟩ rfl rfl (mul_pos h1.hs hP.q1) rfl rfl rfl rfl
        simp only [m1.hs]
        ring
      · simp only [if_neg c1]
        exact key s1 s1' m1 rfl rfl h1.hs rfl rfl rfl rfl

theorem ralgb5_move {P : RalgPar K n} (hE : Euclidean P) (hP : Positive P) {Q : (Fin n → K) → (Fin n → K)}
    (hQ : Rigid Q) {c a β : K} (hc : 0 < c) (ha : 0 < a) (t : Fin n → K) (big : K)
    (hstop : (a = 1 ∧ β = 0) ∨ (P.tolf ≤ 0 ∧ 0 ≤ big)) (calcfg calcfg' : (Fin n → K) → K × (Fin n → K))
    (hf : SameObjective Q c a β t calcfg calcfg') (x0 : Fin n → K) :
    SameOut Q c a β t (ralgb5 P big calcfg x0) (ralgb5 (P.inUnits c a) big calcfg' (newPoint Q c t x0)) := by
  have h1 : AgainstGradient calcfg [x0] := by
    intro l1 l2 p q e
    have := congrArg List.length e
    simp at this
    omega
  obtain ⟨f1, f2⟩ := hf x0
  have f2' : (calcfg' (newPoint Q c t x0)).2 = fun i => a / c * Q (calcfg x0).2 i := funext f2
  have hac : 0 < a / c := div_pos ha hc
  have hnorm : (P.inUnits c a).norm (calcfg' (newPoint Q c t x0)).2 < (P.inUnits c a).tolg ↔
      P.norm (calcfg x0).2 < P.tolg := by
    change P.norm (calcfg' (newPoint Q c t x0)).2 < a / c * P.tolg ↔ _
    rw [f2', hE.norm_rigid hQ hac]
    exact mul_lt_mul_iff_right₀ hac
  have hs : SameState P Q c a β t ⟨P.h0, fun i j => if i = j then 1 else 0, List.replicate P.nsims big, x0, x0,
      (calcfg x0).1, (calcfg x0).2, 0, 1, [x0]⟩ ⟨(P.inUnits c a).h0, fun i j => if i = j then 1 else 0,
      List.replicate (P.inUnits c a).nsims big, newPoint Q c t x0, newPoint Q c t x0, (calcfg' (newPoint Q c t x0)).1,
      (calcfg' (newPoint Q c t x0)).2, 0, 1, [newPoint Q c t x0]⟩ :=
    ⟨rfl, ident_same Q, rfl, rfl, f1, f2', rfl, rfl, rfl⟩
  rw [ralgb5, ralgb5]
  by_cases h : P.norm (calcfg x0).2 < P.tolg
  · rw [if_pos h, if_pos (hnorm.2 h)]
    exact hs.out 2
  · rw [if_neg h, if_neg fun h' => h (hnorm.1 h')]
    refine ralgLoop_move hE hP hQ hc ha hf _ _ _ ⟨⟨hP.h0, rfl, h1⟩, rfl, h, ident_nonsing⟩ hs ?_
    rcases hstop with ⟨h1, h2⟩ | ⟨h1, h2⟩
    · exact Or.inl ⟨h1, h2, rfl⟩
    · have : ∀ v ∈ List.replicate P.nsims big, 0 ≤ v := fun v hv => by rw [(List.mem_replicate.1 hv).2]; exact h2
      exact Or.inr ⟨h1, ⟨List.length_replicate .., this⟩, List.length_replicate .., this⟩

/-- C112: in turned, reflected, renumbered and shifted coordinates, with the unknowns measured in another unit (`tolx`,
`h0` and `tolg` converted), `ralgb5` evaluates the same points and returns the same point, value, counts and code. -/
theorem C112_coordinates {P : RalgPar K n} (hE : Euclidean P) (hP : Positive P) {Q : (Fin n → K) → (Fin n → K)}
    (hQ : Rigid Q) {c : K} (hc : 0 < c) (t : Fin n → K) (big : K) (calcfg calcfg' : (Fin n → K) → K × (Fin n → K))
    (hf : ∀ x, (calcfg' (newPoint Q c t x)).1 = (calcfg x).1 ∧
      ∀ i, (calcfg' (newPoint Q c t x)).2 i = Q (calcfg x).2 i / c) (x0 : Fin n → K) :
    let o := ralgb5 P big calcfg x0
    let o' := ralgb5 { P with tolx := c * P.tolx, tolg := P.tolg / c, h0 := c * P.h0 } big calcfg' (newPoint Q c t x0)
    o'.xr = newPoint Q c t o.xr ∧ o'.fr = o.fr ∧ o'.nit = o.nit ∧ o'.ncalls = o.ncalls ∧ o'.ccode = o.ccode ∧
      o'.evals = o.evals.map (newPoint Q c t) := by
  have h := ralgb5_move hE hP hQ hc one_pos (β := 0) t big (Or.inl ⟨rfl, rfl⟩) calcfg calcfg'
    (fun x => ⟨by rw [(hf x).1]; ring, fun i => by rw [(hf x).2]; ring⟩) x0
  have e : P.inUnits c 1 = { P with tolx := c * P.tolx, tolg := P.tolg / c, h0 := c * P.h0 } := by
    rw [RalgPar.inUnits]
    congr 1
    ring
  rw [e] at h
  exact ⟨h.xr, by rw [h.fr]; ring, h.nit, h.ncalls, h.ccode, h.evals⟩

/-- What is wanted of a change of the objective: `a * f + β` with `a > 0` is minimised along the same points, when
`tolg` is converted. -/
def C112_objective_statement (K : Type*) [Field K] [LinearOrder K] [IsStrictOrderedRing K] (tolfOk : K → Prop) : Prop :=
  ∀ (n : ℕ) (P : RalgPar K n), Euclidean P → Positive P → tolfOk P.tolf → ∀ (a β : K), 0 < a → ∀ (big : K), 0 ≤ big →
    ∀ (calcfg : (Fin n → K) → K × (Fin n → K)) (x0 : Fin n → K),
    let o := ralgb5 P big calcfg x0
    let o' := ralgb5 { P with tolg := a * P.tolg } big (fun x => (a * (calcfg x).1 + β, fun i => a * (calcfg x).2 i)) x0
    o'.xr = o.xr ∧ o'.fr = a * o.fr + β ∧ o'.nit = o.nit ∧ o'.ncalls = o.ncalls ∧ o'.ccode = o.ccode ∧
      o'.evals = o.evals

/-- C112 for the objective, when the test of the function value is switched off (`tolf <= 0`). -/
theorem C112_objective_partial : C112_objective_statement K (· ≤ 0) := by
  intro n P hE hP htol a β ha big hbig calcfg x0
  have hQ : Rigid (fun v : Fin n → K => v) := ⟨fun _ _ _ => rfl, fun _ _ _ => rfl, fun _ _ => rfl⟩
  have hid : ∀ x : Fin n → K, newPoint (fun v => v) 1 (fun _ => 0) x = x := by
    intro x
    funext i
    simp [newPoint]
  have h := ralgb5_move hE hP hQ one_pos ha (β := β) (fun _ => 0) big (Or.inr ⟨htol, hbig⟩) calcfg
    (fun x => (a * (calcfg x).1 + β, fun i => a * (calcfg x).2 i)) (fun x => by
      rw [hid]
      exact ⟨rfl, fun i => by simp⟩) x0
  rw [hid] at h
  have e : P.inUnits 1 a = { P with tolg := a * P.tolg } := by
    rw [RalgPar.inUnits]
    congr 1 <;> ring
  rw [e] at h
  refine ⟨?_, h.fr, h.nit, h.ncalls, h.ccode, ?_⟩
  · rw [h.xr, hid]
  · rw [h.evals]
    have : newPoint (fun v : Fin n → K => v) 1 (fun _ => 0) = id := funext hid
    rw [this, List.map_id]

/-- C112 for the objective is false with the default test: the change of the value is compared with `tolf` as it is when
the value is at most 1, so that the same problem in smaller units of the objective stops earlier. -/
theorem C112_objective_false : ¬ C112_objective_statement ℚ (0 < ·) := by
  intro h
  have := (h 1 { demoPar with nsims := 1 } ⟨demoPar_euclidean.nonneg, demoPar_euclidean.sq, demoPar_euclidean.unit⟩
    ⟨demoPar_positive.tolg, demoPar_positive.alpha, demoPar_positive.h0, demoPar_positive.q1, demoPar_positive.q2⟩
    (by norm_num [demoPar]) (1 / 10000) 0 (by norm_num) 1000000 (by norm_num)
    (fun x => (|x 0 - 5 / 2|, fun _ => npSign (x 0 - 5 / 2))) (fun _ => 0)).2.2.1
  revert this
  decide +kernel

/-- A quarter turn of the plane keeps scalar products, and a shift with another unit is a change of coordinates. -/
example : Rigid (fun v : Fin 2 → ℚ => ![-(v 1), v 0]) ∧
    newPoint (fun v : Fin 2 → ℚ => ![-(v 1), v 0]) 10 (fun _ => 7) ![1, 2] = ![-13, 17] := by
  refine ⟨⟨fun v w i => ?_, fun c v i => ?_, fun v w => ?_⟩, by decide +kernel⟩
  · obtain rfl | rfl : i = 0 ∨ i = 1 := by omega
    · simp; ring
    · simp
  · obtain rfl | rfl : i = 0 ∨ i = 1 := by omega
    · simp
    · simp
  · simp [Fin.sum_univ_two]; ring

/-- The run of `|x - 1/3|` from 0 and of `|y/10 - 1/3 - 7/10|` from 7 (the unit is ten times smaller) are the same. -/
example : let o := ralgb5 demoPar 1000000 (fun x => (|x 0 - 1 / 3|, fun _ => npSign (x 0 - 1 / 3))) (fun _ => 0)
    let o' := ralgb5 { demoPar with tolx := 10 * demoPar.tolx, tolg := demoPar.tolg / 10, h0 := 10 * demoPar.h0 } 1000000
      (fun y => (|(y 0 - 7) / 10 - 1 / 3|, fun _ => npSign ((y 0 - 7) / 10 - 1 / 3) / 10)) (fun _ => 7)
    o'.xr 0 = 10 * o.xr 0 + 7 ∧ o'.fr = o.fr ∧ o'.ncalls = o.ncalls := by decide +kernel

end IntvalPy
