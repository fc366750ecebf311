import Verif.PropsSubdiffDir

/-!
# C144: whether `Subdiff` finds the formal solution

The documentation promises a vector that turns the equations into equalities.  With full steps the method may run in a
circle although there is such a vector; it finds it in one step when the formal solution of the midpoint system has the
same signs.
-/

set_option autoImplicit false
set_option linter.unusedSectionVars false

namespace IntvalPy
open Spec
variable {K : Type*} [Field K] [LinearOrder K] [IsStrictOrderedRing K]

/-- The rows of `A X` differ from `b` by at most `eps` in both ends. -/
def NearFormal {n : Nat} (A : Fin n → Fin n → Iv K) (X b : Fin n → Iv K) (eps : K) : Prop :=
  ∀ i, ∃ U V : Fin n → K, (∀ j, IsKaucherProduct (A i j) (X j) (U j) (V j)) ∧
    |∑ j, U j - (b i).a| ≤ eps ∧ |∑ j, V j - (b i).b| ≤ eps

/-- C144, full statement: if there is a formal solution, the default call returns a vector with residual at most the
tolerance `1e-12` relative to its size. -/
def C144_statement (K : Type*) [Field K] [LinearOrder K] [IsStrictOrderedRing K] : Prop :=
  ∀ (n : Nat) (solve : Solver K n), SolveOK solve → ∀ (A : Fin n → Fin n → Iv K), (∀ i j, Ordinary (A i j)) →
    ∀ b : Fin n → Iv K, (∀ i, Ordinary (b i)) → (∃ Y, FormalSolution A Y b) → ∀ X : Fin n → Iv K,
      subdiff Rnd.exact solve A b (1 / 10 ^ 12) 500 1 (1 / 10 ^ 12) = .ok X →
      NearFormal A X b (1 / 10 ^ 12 * (1 + ∑ j, (|(X j).a| + |(X j).b|)))

def scA : Fin 2 → Fin 2 → Iv ℚ :=
  ![![⟨.classical, 1, 2⟩, ⟨.classical, -3, 1⟩], ![⟨.classical, -3, -1⟩, ⟨.classical, 2, 4⟩]]
def scb : Fin 2 → Iv ℚ := ![⟨.classical, -2, 1⟩, ⟨.classical, -3, 4⟩]
def scX0 : Dbl2 2 → ℚ := sdV ![![-4/5, -1], ![0, 4/5]]
def scX1 : Dbl2 2 → ℚ := sdV ![![-4, 3], ![5, -2]]
def scX2 : Dbl2 2 → ℚ := sdV ![![-1, -3/4], ![1/2, 1/2]]
def scG : Dbl2 2 → Dbl2 2 → ℚ :=
  sdM ![![![![6/5, 0], ![0, 2/5]], ![![0, 3/5], ![4/5, 0]]], ![![![0, 2/5], ![6/5, 0]], ![![4/5, 0], ![0, 3/5]]]]
def scG0 : Dbl2 2 → Dbl2 2 → ℚ :=
  sdM ![![![![-4, 0], ![0, -3]], ![![0, -2], ![-3, 0]]], ![![![0, -3], ![-4, 0]], ![![-3, 0], ![0, -2]]]]
def scG1 : Dbl2 2 → Dbl2 2 → ℚ :=
  sdM ![![![![1/2, 0], ![0, 0]], ![![0, 1/2], ![3/4, 0]]], ![![![0, 0], ![1/2, 0]], ![![3/4, 0], ![0, 1/2]]]]

theorem sc_steps (solve : Solver ℚ 2) (hs : SolveOK solve) :
    newtonStep Rnd.exact solve scA scb 1 scX0 = .ok scX1 ∧
    newtonStep Rnd.exact solve scA scb 1 scX1 = .ok scX2 ∧
    newtonStep Rnd.exact solve scA scb 1 scX2 = .ok scX1 :=
  ⟨newtonStep_of_inverse _ solve hs _ _ _ _ scG0 (by decide +kernel) (by decide +kernel),
   newtonStep_of_inverse _ solve hs _ _ _ _ scG1 (by decide +kernel) (by decide +kernel),
   newtonStep_of_inverse _ solve hs _ _ _ _ scG0 (by decide +kernel) (by decide +kernel)⟩

theorem sc_run (solve : Solver ℚ 2) (hs : SolveOK solve) :
    subdiff Rnd.exact solve scA scb (1 / 10 ^ 12) 500 1 (1 / 10 ^ 12) =
      .ok ![⟨.classical, -4, 5⟩, ⟨.kaucher, 3, -2⟩] := by
  obtain ⟨s0, s1, s2⟩ := sc_steps solve hs
  have hloop : ∀ k, subdiffLoop Rnd.exact solve scA scb (1 / 10 ^ 12) 1 (1 / 10 ^ 12) (2 * k) scX1 = .ok scX1 := by
    intro k
    induction k with
    | zero => rfl
    | succ k ih =>
      rw [show 2 * (k + 1) = 2 * k + 1 + 1 by ring, subdiffLoop, s1]
      dsimp only
      rw [if_pos (by decide +kernel), subdiffLoop, s2]
      dsimp only
      rw [if_pos (by decide +kernel), ih]
  unfold subdiff
  rw [dif_pos rfl, dif_pos rfl]
  change subdiffSq Rnd.exact solve scA scb _ _ _ _ = _
  unfold subdiffSq
  rw [solve_of_inverse solve hs _ scG _ scX0 (by decide +kernel) (by decide +kernel)]
  dsimp only
  rw [show ((500 : ℤ) + 1).toNat = (2 * 250) + 1 by decide, subdiffLoop, s0]
  dsimp only
  rw [if_pos (by decide +kernel), hloop 250]
  refine congrArg Except.ok (funext fun j => ?_)
  fin_cases j <;> decide +kernel

/-- C144 is false: on `[[1, 2], [-3, 1]; [-3, -1], [2, 4]] x = ([-2, 1], [-3, 4])`, whose formal solution is
`([4, -5], [-2, 2])`, the default call alternates between two vectors for all 501 passes and returns
`([-4, 5], [3, -2])`, for which `A X = ([-8, 10], [-9, 8])`. -/
theorem C144_false : ¬ C144_statement ℚ := by
  intro h
  have hf : FormalSolution scA ![⟨.kaucher, 4, -5⟩, ⟨.classical, -2, 2⟩] scb := by
    rw [formalSolution_iff]
    intro i
    fin_cases i <;> decide +kernel
  obtain ⟨U, V, hp, -, hv⟩ := h 2 (exactSolver 2) (exactSolver_ok 2) scA
    (by intro i j; fin_cases i <;> fin_cases j <;> norm_num [scA, Ordinary]) scb
    (by intro i; fin_cases i <;> norm_num [scb, Ordinary]) ⟨_, hf⟩ _ (sc_run (exactSolver 2) (exactSolver_ok 2)) 0
  have e := fun j => (isKaucherProduct_unique (hp j) (isKaucherProduct_kForm _ _)).2
  rw [Fin.sum_univ_two, e 0, e 1] at hv
  revert hv
  decide +kernel

/-! ## When the start has the right signs -/

/-- The ends of `X` and `Y` have the same signs. -/
def EndSigns (X Y : Iv K) : Prop := npSign X.a = npSign Y.a ∧ npSign X.b = npSign Y.b

theorem le_of_signs {X Y : Iv K} (h : EndSigns X Y) (c : ¬ 0 < npSign Y.a * npSign Y.b) (hX : X.a ≤ X.b) : Y.a ≤ Y.b := by
  obtain ⟨h1, h2⟩ := h
  rcases npSign_eq X.a with ⟨p1, q1⟩ | ⟨p1, q1⟩ | ⟨p1, q1⟩ <;> rcases npSign_eq X.b with ⟨p2, q2⟩ | ⟨p2, q2⟩ | ⟨p2, q2⟩ <;>
  rcases npSign_eq Y.a with ⟨p3, q3⟩ | ⟨p3, q3⟩ | ⟨p3, q3⟩ <;> rcases npSign_eq Y.b with ⟨p4, q4⟩ | ⟨p4, q4⟩ | ⟨p4, q4⟩ <;>
  rw [q1, q3] at h1 <;> rw [q2, q4] at h2 <;> rw [q3, q4] at c <;>
  first
  | linarith
  | (norm_num at h1; done)
  | (norm_num at h2; done)
  | (norm_num at c; done)

theorem EndSigns.symm {X Y : Iv K} (h : EndSigns X Y) : EndSigns Y X := ⟨h.1.symm, h.2.symm⟩

theorem sgM_signs {X Y : Iv K} (h : EndSigns X Y) : sgM X = sgM Y := by
  unfold sgM
  rw [h.1, h.2]
  by_cases c : 0 < npSign Y.a * npSign Y.b
  · rw [if_pos c, if_pos c]
  · rw [if_neg c, if_neg c]
    by_cases d : X.a ≤ X.b
    · rw [if_pos d, if_pos (le_of_signs h c d)]
    · rw [if_neg d, if_neg fun e => d (le_of_signs h.symm (by rwa [h.1, h.2]) e)]

/-- Away from the two cases that compare products the block depends on the signs only. -/
theorem calcSubgrad_signs {g X Y : Iv K} (hg : g.a ≤ g.b) (h : EndSigns X Y)
    (hz : (g.a ≤ 0 ∧ 0 ≤ g.b) → ¬ (Y.a ≤ 0 ∧ 0 ≤ Y.b)) : calcSubgrad g X = calcSubgrad g Y := by
  have hm := sgM_signs h
  unfold calcSubgrad
  rw [hm]
  rcases sgK_cases g with ⟨e, h1, h2⟩ | ⟨e, h1, h2⟩ | ⟨e, h1, h2, h3⟩ | ⟨e, h1, h2⟩
  · rcases sgM_cases Y with ⟨f, -⟩ | ⟨f, -⟩ | ⟨f, -⟩ | ⟨f, -⟩ <;> simp only [e, f]
  · rcases sgM_cases Y with ⟨f, -⟩ | ⟨f, -⟩ | ⟨f, -⟩ | ⟨f, -⟩ <;> simp only [e, f]
  · rcases sgM_cases Y with ⟨f, -⟩ | ⟨f, -⟩ | ⟨f, h4⟩ | ⟨f, -⟩
    · simp only [e, f]
    · simp only [e, f]
    · exact absurd h4 (hz ⟨h1, h2⟩)
    · simp only [e, f]
  · have hb : g.b = 0 := le_antisymm h1 (h2.trans hg)
    have ha : g.a = 0 := le_antisymm (hg.trans h1) h2
    rcases sgM_cases Y with ⟨f, -⟩ | ⟨f, -⟩ | ⟨f, -⟩ | ⟨f, -⟩ <;> simp [e, f, ha, hb]

/-- The ends of an interval vector as an array of length `2n`. -/
def endsOf {n : Nat} (Y : Fin n → Iv K) : Dbl2 n → K := Sum.elim (fun j => (Y j).a) fun j => (Y j).b

theorem kLo_ends {g X Y : Iv K} (h1 : X.a = Y.a) (h2 : X.b = Y.b) : kLo g X = kLo g Y ∧ kHi g X = kHi g Y := by
  unfold kLo kHi Iv.kInf Iv.kSup
  rw [h1, h2]
  exact ⟨rfl, rfl⟩

theorem calcSubgrad_ends {g X Y : Iv K} (h1 : X.a = Y.a) (h2 : X.b = Y.b) : calcSubgrad g X = calcSubgrad g Y := by
  unfold calcSubgrad sgM
  rw [h1, h2]

/-- C144, partial: for an ordinary matrix, let `Y` be a formal solution and `Z` a formal solution of the midpoint system
`mid A Z = b`. If the ends of `Z` and `Y` have the same signs, and no column with a proper component around zero meets an
entry containing zero, then with full steps whatever `Subdiff` returns is `Y`, for every tolerance and number of passes.
Missing: other starts, for which it is false (`C144_false`). -/
theorem C144_same_signs_partial {n : Nat} (solve : Solver K n) (hs : SolveOK solve) (A : Fin n → Fin n → Iv K)
    (hA : ∀ i j, (A i j).a ≤ (A i j).b) (b Y Z : Fin n → Iv K) (hY : FormalSolution A Y b)
    (hZ : FormalSolution (fun i j => ⟨.classical, (A i j).mid Rnd.exact, (A i j).mid Rnd.exact⟩) Z b)
    (hsg : ∀ j, EndSigns (Z j) (Y j))
    (hz : ∀ i j, (A i j).a ≤ 0 ∧ 0 ≤ (A i j).b → ¬ ((Y j).a ≤ 0 ∧ 0 ≤ (Y j).b))
    (tol : K) (maxiter : Int) (hmax : 0 ≤ maxiter) (normMin : K) (X : Fin n → Iv K)
    (h : subdiff Rnd.exact solve A b tol maxiter 1 normMin = .ok X) (j : Fin n) :
    (X j).a = (Y j).a ∧ (X j).b = (Y j).b := by
  have hW : ∀ i j, WF (A i j) := fun i j _ => hA i j
  set Mid : Fin n → Fin n → Iv K := fun i j => ⟨.classical, (A i j).mid Rnd.exact, (A i j).mid Rnd.exact⟩ with hMid
  have hnb : ∀ (x : Dbl2 n → K) i j, ¬ BadCorner (A i j) (ivAt x j) := fun x i j => not_bad (Or.inl (hA i j)) _
  -- the start is `Z`
  have hsup : superMatrix Rnd.exact Mid = superMatrix Rnd.exact A := by
    have hm : ∀ i j, (Mid i j).mid Rnd.exact = (A i j).mid Rnd.exact := fun i j => by
      simp only [hMid, Iv.mid, Rnd.exact_nr, id]; ring
    funext p q
    rcases p with i | i <;> rcases q with j | j <;> simp only [superMatrix, hm]
  have imgZ : (Matrix.of (superMatrix Rnd.exact A)).mulVec (endsOf Z) = endsOf b := by
    rw [← hsup, point_superMatrix Mid (fun _ _ => rfl) (endsOf Z)]
    have hmb : ∀ i j, ¬ BadCorner (Mid i j) (ivAt (endsOf Z) j) := fun i j => not_bad (Or.inl le_rfl) _
    have hf := (formalSolution_iff Mid Z b).1 hZ
    funext p
    rcases p with i | i
    · rw [(subgradMat_mulVec Mid (endsOf Z) hmb i).1]
      refine (Finset.sum_congr rfl fun j _ => ?_).trans (hf i).1
      exact (kLo_ends (ivAt_ends (endsOf Z) j).1 (ivAt_ends (endsOf Z) j).2).1
    · rw [(subgradMat_mulVec Mid (endsOf Z) hmb i).2]
      refine (Finset.sum_congr rfl fun j _ => ?_).trans (hf i).2
      exact (kLo_ends (ivAt_ends (endsOf Z) j).1 (ivAt_ends (endsOf Z) j).2).2
  have eY : ∀ j, (ivAt (endsOf Y) j).a = (Y j).a ∧ (ivAt (endsOf Y) j).b = (Y j).b := fun j => ivAt_ends (endsOf Y) j
  have eZ : ∀ j, (ivAt (endsOf Z) j).a = (Z j).a ∧ (ivAt (endsOf Z) j).b = (Z j).b := fun j => ivAt_ends (endsOf Z) j
  -- both have the same subgradient matrix
  have hF : subgradMat A (endsOf Z) = subgradMat A (endsOf Y) := by
    have hB : ∀ i j, calcSubgrad (A i j) (ivAt (endsOf Z) j) = calcSubgrad (A i j) (ivAt (endsOf Y) j) := by
      intro i j
      rw [calcSubgrad_ends (eZ j).1 (eZ j).2, calcSubgrad_ends (eY j).1 (eY j).2]
      exact calcSubgrad_signs (hA i j) (hsg j) (hz i j)
    funext p q
    rcases p with i | i <;> rcases q with j | j <;> simp only [subgradMat, hB]
  have imgY : (Matrix.of (subgradMat A (endsOf Z))).mulVec (endsOf Y) = endsOf b := by
    rw [hF]
    have hf := (formalSolution_iff A Y b).1 hY
    funext p
    rcases p with i | i
    · rw [(subgradMat_mulVec A (endsOf Y) (hnb _) i).1]
      exact (Finset.sum_congr rfl fun j _ => (kLo_ends (eY j).1 (eY j).2).1).trans (hf i).1
    · rw [(subgradMat_mulVec A (endsOf Y) (hnb _) i).2]
      exact (Finset.sum_congr rfl fun j _ => (kLo_ends (eY j).1 (eY j).2).2).trans (hf i).2
  -- the first step from `Z`
  have first : ∀ xx, newtonStep Rnd.exact solve A b 1 (endsOf Z) = .ok xx → xx = endsOf Y := by
    intro xx hx
    have hi := newton_image solve hs A hW b 1 (endsOf Z) xx (hnb _) hx
    have im : (Matrix.of (subgradMat A (endsOf Z))).mulVec xx = endsOf b := by
      funext p
      rcases p with i | i
      · have := (hi i).1
        rw [sub_self, zero_mul] at this
        exact sub_eq_zero.1 this
      · have := (hi i).2
        rw [sub_self, zero_mul] at this
        exact sub_eq_zero.1 this
    unfold newtonStep at hx
    cases hd : solve (subgradMat A (endsOf Z)) (resVec Rnd.exact A b (endsOf Z)) with
    | error e => rw [hd] at hx; cases hx
    | ok d =>
      have hu := ((hs _ _).2 d hd).1
      have := im.trans imgY.symm
      have := congrArg ((Matrix.of (subgradMat A (endsOf Z)))⁻¹).mulVec this
      rwa [Matrix.mulVec_mulVec, Matrix.mulVec_mulVec, Matrix.nonsing_inv_mul _ hu, Matrix.one_mulVec, Matrix.one_mulVec] at this
  -- later steps stay
  have hzero : resVec Rnd.exact A b (endsOf Y) = 0 := by
    rw [resVec_eq A hW b _ (hnb _), ← hF, imgY]
    exact sub_self _
  have stay : ∀ fuel xx, subdiffLoop Rnd.exact solve A b tol 1 normMin fuel (endsOf Y) = .ok xx → xx = endsOf Y := by
    intro fuel
    induction fuel with
    | zero => intro xx hx; cases hx; rfl
    | succ fuel ih =>
      intro xx hx
      rw [subdiffLoop] at hx
      cases hst : newtonStep Rnd.exact solve A b 1 (endsOf Y) with
      | error e => rw [hst] at hx; cases hx
      | ok y =>
        have := newtonStep_of_zero _ hs hst hzero
        subst this
        rw [hst] at hx
        dsimp only at hx
        split_ifs at hx
        · exact ih xx hx
        · injection hx with hx; exact hx.symm
  unfold subdiff at h
  rw [dif_pos rfl, dif_pos rfl] at h
  change subdiffSq Rnd.exact solve A b tol maxiter 1 normMin = .ok X at h
  unfold subdiffSq at h
  cases h0 : solve (superMatrix Rnd.exact A) (Sum.elim (fun i => (b i).a) (fun i => (b i).b)) with
  | error e => rw [h0] at h; cases h
  | ok x0 =>
    obtain ⟨hu, hm⟩ := (hs _ _).2 x0 h0
    have ex : x0 = endsOf Z := by
      have := hm.trans imgZ.symm
      have := congrArg ((Matrix.of (superMatrix Rnd.exact A))⁻¹).mulVec this
      rwa [Matrix.mulVec_mulVec, Matrix.mulVec_mulVec, Matrix.nonsing_inv_mul _ hu, Matrix.one_mulVec, Matrix.one_mulVec] at this
    subst ex
    rw [h0] at h
    dsimp only at h
    obtain ⟨f, hf⟩ : ∃ f, (maxiter + 1).toNat = f + 1 := ⟨maxiter.toNat, by omega⟩
    rw [hf, subdiffLoop] at h
    cases hst : newtonStep Rnd.exact solve A b 1 (endsOf Z) with
    | error e => rw [hst] at h; cases h
    | ok y =>
      have := first y hst
      subst this
      rw [hst] at h
      dsimp only at h
      have fin : ∀ xx, (if tol < resSum Rnd.exact A b (endsOf Z) / stepNorm normMin (endsOf Y) then
          subdiffLoop Rnd.exact solve A b tol 1 normMin f (endsOf Y) else .ok (endsOf Y)) = .ok xx → xx = endsOf Y := by
        intro xx hx
        split_ifs at hx
        · exact stay f xx hx
        · injection hx with hx; exact hx.symm
      cases hl : (if tol < resSum Rnd.exact A b (endsOf Z) / stepNorm normMin (endsOf Y) then
          subdiffLoop Rnd.exact solve A b tol 1 normMin f (endsOf Y) else .ok (endsOf Y)) with
      | error e => rw [hl] at h; cases h
      | ok xx =>
        rw [hl] at h
        injection h with h
        have := fin xx hl
        subst this
        rw [← h]
        exact eY j

/-- The hypotheses are met: `[[2, 4], 0; 0, [-3, -1]] x = ([3, 5], [1, 3])`, formal solution `([3/2, 5/4], [-1, -1])`, formal
solution of the midpoint system `([1, 5/3], [-3/2, -1/2])`. -/
example : let A : Fin 2 → Fin 2 → Iv ℚ := ![![⟨.classical, 2, 4⟩, ⟨.classical, 0, 0⟩], ![⟨.classical, 0, 0⟩, ⟨.classical, -3, -1⟩]]
    let b : Fin 2 → Iv ℚ := ![⟨.classical, 3, 5⟩, ⟨.classical, 1, 3⟩]
    let Y : Fin 2 → Iv ℚ := ![⟨.kaucher, 3/2, 5/4⟩, ⟨.classical, -1, -1⟩]
    let Z : Fin 2 → Iv ℚ := ![⟨.classical, 1, 5/3⟩, ⟨.classical, -3/2, -1/2⟩]
    (∀ i j, (A i j).a ≤ (A i j).b) ∧ FormalSolution A Y b ∧
    FormalSolution (fun i j => ⟨.classical, (A i j).mid Rnd.exact, (A i j).mid Rnd.exact⟩) Z b ∧
    (∀ j, EndSigns (Z j) (Y j)) ∧
    (∀ i j, (A i j).a ≤ 0 ∧ 0 ≤ (A i j).b → ¬ ((Y j).a ≤ 0 ∧ 0 ≤ (Y j).b)) ∧
    subdiff Rnd.exact (exactSolver 2) A b (1 / 10 ^ 12) 0 1 (1 / 10 ^ 12) = .ok Y := by
  intro A b Y Z
  refine ⟨by intro i j; fin_cases i <;> fin_cases j <;> decide +kernel, ?_, ?_, ?_, ?_, ?_⟩
  · rw [formalSolution_iff]; intro i; fin_cases i <;> decide +kernel
  · rw [formalSolution_iff]; intro i; fin_cases i <;> decide +kernel
  · intro j; fin_cases j <;> exact ⟨by decide +kernel, by decide +kernel⟩
  · intro i j; fin_cases i <;> fin_cases j <;> decide +kernel
  · unfold subdiff
    rw [dif_pos rfl, dif_pos rfl]
    change subdiffSq Rnd.exact (exactSolver 2) A b _ _ _ _ = _
    unfold subdiffSq
    rw [solve_of_inverse (exactSolver 2) (exactSolver_ok 2) _
      (sdM ![![![![1/3, 0], ![0, 0]], ![![0, 0], ![0, -1/2]]], ![![![0, 0], ![1/3, 0]], ![![0, -1/2], ![0, 0]]]]) _ (endsOf Z)
      (by decide +kernel) (by decide +kernel)]
    dsimp only
    rw [show ((0 : ℤ) + 1).toNat = 0 + 1 by decide, subdiffLoop,
      newtonStep_of_inverse _ _ (exactSolver_ok 2) _ _ _ (endsOf Y)
      (sdM ![![![![1/2, 0], ![0, 0]], ![![0, 0], ![0, -1/3]]], ![![![0, 0], ![1/4, 0]], ![![0, -1], ![0, 0]]]])
      (by decide +kernel) (by decide +kernel)]
    dsimp only
    rw [if_pos (by decide +kernel), subdiffLoop]
    refine congrArg Except.ok (funext fun j => ?_)
    fin_cases j <;> decide +kernel

end IntvalPy
