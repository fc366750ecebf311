import Verif.PropsPSSSharp

/-!
# When PSS returns on start boxes without zeros (C74)

On such boxes one pass is made, both halves are treated by the linear program, and the working list is empty exactly
when neither half has a solution below the upper end of the start bound.
-/

set_option autoImplicit false
set_option linter.unusedSectionVars false

namespace IntvalPy
open Spec
variable {K : Type*} [Field K] [LinearOrder K] [IsStrictOrderedRing K]

theorem pssHalf_nozero {n m : ℕ} (P : PssArg K n m) (omega : K) (L : List (PssEl K m)) (Q : Fin m → Iv K)
    (h0 : ∀ j, ¬ (0 : K) ∈ Q j) :
    pssHalf P omega L Q =
      if exactOmega P.R P.lp P.A P.b P.nu (P.V P.nu) Q < omega then
        .ok (pssInsert ⟨Q, exactOmega P.R P.lp P.A P.b P.nu (P.V P.nu) Q, false⟩ L,
          some (exactOmega P.R P.lp P.A P.b P.nu (P.V P.nu) Q))
      else .ok (L, none) := by
  have hz : ¬ ((List.finRange m).any fun j => (Q j).containsNum 0) = true := by
    intro h
    obtain ⟨j, -, hj⟩ := List.any_eq_true.1 h
    exact h0 j (containsNum_iff.1 hj)
  unfold pssHalf
  rw [if_neg hz]

/-- The single pass on a start box without zeros. -/
theorem pssAlgo_nozero {n m : ℕ} (P : PssArg K n m) (hP : P.OK) (h0 : ∀ j, ¬ (0 : K) ∈ P.V (P.nu.succAbove j))
    (hw : ∃ j, j ≠ P.nu ∧ P.tol ≤ (P.V j).b - (P.V j).a) (maxiter : ℤ) (hmax : 0 ≤ maxiter) :
    ∃ Q1 Q2 : Fin m → Iv K,
      (∀ j, Ordinary (Q1 j)) ∧ (∀ j, Ordinary (Q2 j)) ∧ (∀ j, ¬ (0 : K) ∈ Q1 j) ∧ (∀ j, ¬ (0 : K) ∈ Q2 j) ∧
      (∀ y : Fin m → K, (∀ j, y j ∈ P.V (P.nu.succAbove j)) → (∀ j, y j ∈ Q1 j) ∨ ∀ j, y j ∈ Q2 j) ∧
      let q1 := exactOmega P.R P.lp P.A P.b P.nu (P.V P.nu) Q1
      let q2 := exactOmega P.R P.lp P.A P.b P.nu (P.V P.nu) Q2
      pssAlgo P maxiter = if min q1 q2 < (P.V P.nu).b then .ok (min q1 q2) else .error .indexError := by
  obtain ⟨j0, hj0, hj2⟩ := hw
  obtain ⟨i0, rfl⟩ := Fin.exists_succAbove_eq hj0
  have hm : m ≠ 0 := fun e => by subst e; exact i0.elim0
  obtain ⟨f, hf⟩ : ∃ f, (maxiter + 1).toNat = f + 1 := ⟨maxiter.toNat, by omega⟩
  cases hk : argmaxOn (fun j => (P.V (P.nu.succAbove j)).wid P.R) (List.finRange m) with
  | none =>
      exfalso
      cases hl : List.finRange m with
      | nil => have := List.mem_finRange i0; rw [hl] at this; cases this
      | cons a t => rw [hl] at hk; cases hk
  | some k =>
    have htol : P.tol ≤ (P.V (P.nu.succAbove k)).wid P.R := by
      have := (argmaxOn_spec (fun j => (P.V (P.nu.succAbove j)).wid P.R) (List.finRange m) k hk).2 i0 (List.mem_finRange i0)
      refine le_trans ?_ this
      unfold Iv.wid
      rwa [hP.nr]
    set Q : Fin m → Iv K := fun j => P.V (P.nu.succAbove j) with hQ
    have hQo : ∀ j, Ordinary (Q j) := fun j => hP.V _
    obtain ⟨o1, o2⟩ := pssSplit_ordinary hP.nr Q k hQo
    obtain ⟨-, -, hne, s1, s2⟩ := pssSplit_widths hP.nr Q k hQo
    have n1 : ∀ j, ¬ (0 : K) ∈ (pssSplit P.R Q k).1 j := by
      intro j hj
      by_cases hjk : j = k
      · subst hjk; exact h0 _ (s1 0 hj)
      · rw [(hne j hjk).1] at hj; exact h0 _ hj
    have n2 : ∀ j, ¬ (0 : K) ∈ (pssSplit P.R Q k).2 j := by
      intro j hj
      by_cases hjk : j = k
      · subst hjk; exact h0 _ (s2 0 hj)
      · rw [(hne j hjk).2] at hj; exact h0 _ hj
    refine ⟨_, _, o1, o2, n1, n2, fun y hy => pssSplit_covers P.R Q k y hy, ?_⟩
    dsimp only
    unfold pssAlgo
    rw [if_neg hm]
    dsimp only
    rw [hf]
    unfold pssLoop
    change (match argmaxOn (fun j => (P.V (P.nu.succAbove j)).wid P.R) (List.finRange m) with | none => _ | some k => _) = _
    rw [hk]
    dsimp only
    rw [if_pos htol, pssHalf_nozero P _ _ _ n1]
    set q1 := exactOmega P.R P.lp P.A P.b P.nu (P.V P.nu) (pssSplit P.R Q k).1 with hq1
    set q2 := exactOmega P.R P.lp P.A P.b P.nu (P.V P.nu) (pssSplit P.R Q k).2 with hq2
    by_cases c1 : q1 < (P.V P.nu).b <;> by_cases c2 : q2 < (P.V P.nu).b
    · rw [if_pos c1]
      dsimp only
      rw [pssHalf_nozero P _ _ _ n2, ← hq2, if_pos c2, if_pos (min_lt_of_left_lt c1)]
      dsimp only [List.eraseIdx, pssInsert, etaMin]
      by_cases h12 : q1 < q2
      · rw [if_pos h12, if_pos h12.le]
        simp [pssPrune, c1, not_le.2 h12, pssHead, min_eq_left h12.le]
      · have h21 := not_lt.1 h12
        rw [if_neg h12]
        by_cases he : q1 ≤ q2
        · have : q1 = q2 := le_antisymm he h21
          rw [if_pos he]
          simp [pssPrune, c2, this, pssHead, List.findIdx?_cons]
        · rw [if_neg he]
          simp [pssPrune, c2, he, pssHead, min_eq_right h21]
    · rw [if_pos c1]
      dsimp only
      rw [pssHalf_nozero P _ _ _ n2, ← hq2, if_neg c2, if_pos (min_lt_of_left_lt c1)]
      dsimp only [List.eraseIdx, pssInsert, etaMin]
      have : q1 ≤ q2 := (c1.trans_le (not_lt.1 c2)).le
      simp [pssPrune, c1, pssHead, min_eq_left this]
    · rw [if_neg c1]
      dsimp only
      rw [pssHalf_nozero P _ _ _ n2, ← hq2, if_pos c2, if_pos (min_lt_of_right_lt c2)]
      dsimp only [List.eraseIdx, pssInsert, etaMin]
      have : q2 ≤ q1 := (c2.trans_le (not_lt.1 c1)).le
      simp [pssPrune, c2, pssHead, min_eq_right this]
    · rw [if_neg c1]
      dsimp only
      rw [pssHalf_nozero P _ _ _ n2, ← hq2, if_neg c2, if_neg (not_lt.2 (le_min (not_lt.1 c1) (not_lt.1 c2)))]
      simp [pssPrune, etaMin, pssHead]

/-- C74, one component: on a correct start box without zeros `algo` returns exactly when some solution lies below the
upper end of the start bound; otherwise it raises `IndexError`. -/
theorem C74_orthant_algo {n m : ℕ} (P : PssArg K n m) (hP : P.OK) (h0 : ∀ j, ¬ (0 : K) ∈ P.V j)
    (hS : ∀ x, United P.A P.b x → InVec x P.V) (hw : ∃ j, j ≠ P.nu ∧ P.tol ≤ (P.V j).b - (P.V j).a) (maxiter : ℤ)
    (hmax : 0 ≤ maxiter) :
    ((∃ r, pssAlgo P maxiter = .ok r) ↔ ∃ x, United P.A P.b x ∧ x P.nu < (P.V P.nu).b) ∧
    (pssAlgo P maxiter = .error .indexError ↔ ¬ ∃ x, United P.A P.b x ∧ x P.nu < (P.V P.nu).b) := by
  have ha : (P.V P.nu).a ≠ 0 := fun hc => h0 _ ⟨hc.le, hc.symm.le.trans (hP.V _).2⟩
  have hb0 : (P.V P.nu).b ≠ 0 := fun hc => h0 _ ⟨(hP.V _).2.trans hc.le, hc.symm.le⟩
  obtain ⟨Q1, Q2, o1, o2, n1, n2, hcov, he⟩ := pssAlgo_nozero P hP (fun j => h0 _) hw maxiter hmax
  dsimp only at he
  have key : min (exactOmega P.R P.lp P.A P.b P.nu (P.V P.nu) Q1) (exactOmega P.R P.lp P.A P.b P.nu (P.V P.nu) Q2)
      < (P.V P.nu).b ↔ ∃ x, United P.A P.b x ∧ x P.nu < (P.V P.nu).b := by
    have one : ∀ Q : Fin m → Iv K, (∀ j, Ordinary (Q j)) → (∀ j, ¬ (0 : K) ∈ Q j) →
        exactOmega P.R P.lp P.A P.b P.nu (P.V P.nu) Q < (P.V P.nu).b →
        ∃ x, United P.A P.b x ∧ x P.nu < (P.V P.nu).b := by
      intro Q hQ hz hlt
      rcases C106_exact_box hP.nr P.lp hP.lpOK hP.lpComplete P.A P.b hP.A hP.b P.nu _ hP.big ha hb0 Q hQ hz with
        ⟨x, hx, -, e⟩ | ⟨e, -⟩
      · exact ⟨x, hx, e ▸ hlt⟩
      · rw [e] at hlt
        exact absurd (hlt.trans_le hP.big.2) (lt_irrefl _)
    constructor
    · intro h
      rcases min_lt_iff.1 h with h | h
      · exact one Q1 o1 n1 h
      · exact one Q2 o2 n2 h
    · rintro ⟨x, hx, hlt⟩
      rcases hcov (fun j => x (P.nu.succAbove j)) fun j => hS x hx _ with h | h
      · exact min_lt_of_left_lt ((exactOmega_le hP.nr P.lp hP.lpOK hP.lpComplete P.A P.b P.nu _ hP.big Q1 x hx
          (hS x hx _) h n1).trans_lt hlt)
      · exact min_lt_of_right_lt ((exactOmega_le hP.nr P.lp hP.lpOK hP.lpComplete P.A P.b P.nu _ hP.big Q2 x hx
          (hS x hx _) h n2).trans_lt hlt)
  rw [← key, he]
  by_cases c : min (exactOmega P.R P.lp P.A P.b P.nu (P.V P.nu) Q1) (exactOmega P.R P.lp P.A P.b P.nu (P.V P.nu) Q2)
      < (P.V P.nu).b
  · rw [if_pos c]
    exact ⟨⟨fun _ => c, fun _ => ⟨_, rfl⟩⟩, ⟨fun h => (by cases h), fun h => absurd c h⟩⟩
  · rw [if_neg c]
    exact ⟨⟨fun ⟨r, h⟩ => (by cases h), fun h => absurd h c⟩, ⟨fun _ => c, fun _ => rfl⟩⟩

theorem pssAll_returns {n m : ℕ} (P : PssArg K n m) (maxiter : ℤ) (nus : List (Fin (m + 1))) :
    (∃ rs, pssAll P maxiter nus = .ok rs) ↔ ∀ nu ∈ nus, ∃ r, pssAlgo { P with nu := nu } maxiter = .ok r := by
  induction nus with
  | nil => exact ⟨fun _ nu h => (by cases h), fun _ => ⟨[], rfl⟩⟩
  | cons nu nus ih =>
    unfold pssAll
    cases h : pssAlgo { P with nu := nu } maxiter with
    | error e =>
      refine ⟨fun ⟨rs, h'⟩ => (by cases h'), fun h' => ?_⟩
      obtain ⟨r, hr⟩ := h' nu List.mem_cons_self
      rw [h] at hr; cases hr
    | ok q =>
      dsimp only
      constructor
      · rintro ⟨rs, h'⟩ k hk
        rcases List.mem_cons.1 hk with rfl | hk
        · exact ⟨q, h⟩
        · refine ih.1 ?_ k hk
          cases h2 : pssAll P maxiter nus with
          | error e => rw [h2] at h'; cases h'
          | ok t => exact ⟨t, rfl⟩
      · intro h'
        obtain ⟨t, ht⟩ := ih.2 fun k hk => h' k (List.mem_cons_of_mem _ hk)
        exact ⟨q :: t, by rw [ht]; rfl⟩

/-- C74 (partial): on correct start boxes without zeros (for the system and for the negated one) `PSS` returns exactly
when, for every component asked for, the upper end of the start bound and the lower end are not the component of all
solutions. Missing for the full statement: start boxes with zeros, where it is false (`C74_empty_list_false`). -/
theorem C74_orthant_partial {n m : ℕ} (lp : LpSolver K (PssRow n m) (Fin (m + 1))) (hlp : LpOK lp)
    (hc : LpComplete lp) (V1 V2 : Fin (m + 1) → Iv K) (start : (Fin n → Iv K) → Fin (m + 1) → Iv K) (tol : K)
    (maxiter : ℤ) (hmax : 0 ≤ maxiter) (A : Fin n → Fin (m + 1) → Iv K) (b : Fin n → Iv K)
    (hA : ∀ i j, Ordinary (A i j)) (hb : ∀ i, Ordinary (b i)) (e1 : start b = V1) (e2 : start (fun i => (b i).neg) = V2)
    (s1 : StartOK V1 A b) (s2 : StartOK V2 A fun i => (b i).neg)
    (z1 : ∀ j, ¬ (0 : K) ∈ V1 j) (z2 : ∀ j, ¬ (0 : K) ∈ V2 j)
    (w1 : ∀ nu, ∃ j, j ≠ nu ∧ tol ≤ (V1 j).b - (V1 j).a) (w2 : ∀ nu, ∃ j, j ≠ nu ∧ tol ≤ (V2 j).b - (V2 j).a)
    (nu : Option (Fin (m + 1))) :
    (∃ X, pss Rnd.exact lp start tol maxiter A b nu = .ok X) ↔
      ∀ k ∈ nu.elim (List.finRange (m + 1)) fun k => [k],
        (∃ x, United A b x ∧ x k < (V1 k).b) ∧ ∃ x, United A b x ∧ -(V2 k).b < x k := by
  have hnb : ∀ i, Ordinary ((b i).neg) := fun i =>
    ⟨(hb i).1, by have := (hb i).2; unfold Iv.neg; simpa using this⟩
  have f1 : (fun i => (b i).rmul Rnd.exact 1) = b := by
    funext i
    obtain ⟨hcl, hle⟩ := hb i
    rcases hbi : b i with ⟨cl, l, u⟩
    rw [hbi] at hcl hle
    dsimp only at hcl hle
    subst hcl
    simp [Iv.rmul, Rnd.exact, hle]
  have f2 : (fun i => (b i).rmul Rnd.exact (-1)) = fun i => (b i).neg := by
    funext i
    obtain ⟨hcl, hle⟩ := hb i
    rcases hbi : b i with ⟨cl, l, u⟩
    rw [hbi] at hcl hle
    dsimp only at hcl hle
    subst hcl
    simp [Iv.rmul, Rnd.exact, Iv.neg, hle]
  have hnus : pssNus nu = nu.elim (List.finRange (m + 1)) fun k => [k] := by
    cases nu <;> rfl
  have neg : ∀ (c d : Fin n → Iv K), (∀ i t, t ∈ c i → -t ∈ d i) → ∀ x, United A c x → United A d fun j => -x j :=
    fun c d h x hx => united_neg A _ d x hx fun i t hti => h i t hti
  have n1 : ∀ i t, t ∈ b i → -t ∈ (b i).neg := fun i t ht => by
    rw [Iv.mem_def] at ht ⊢
    exact ⟨neg_le_neg ht.2, neg_le_neg ht.1⟩
  have n2 : ∀ i t, t ∈ (b i).neg → -t ∈ b i := fun i t ht => by
    rw [Iv.mem_def] at ht ⊢
    have h1 : -(b i).b ≤ t := ht.1
    have h2 : t ≤ -(b i).a := ht.2
    constructor <;> linarith
  have r1 : ∀ l, (∃ rs, pssAll ⟨Rnd.exact, lp, A, b, V1, 0, tol⟩ maxiter l = .ok rs) ↔
      ∀ k ∈ l, ∃ x, United A b x ∧ x k < (V1 k).b := fun l => by
    rw [pssAll_returns]
    exact forall₂_congr fun k _ => (C74_orthant_algo ⟨Rnd.exact, lp, A, b, V1, k, tol⟩
      ⟨fun _ => rfl, hlp, hc, hA, hb, s1.1, s1.2.1 k⟩ z1 s1.2.2 (w1 k) maxiter hmax).1
  have r2 : ∀ l, (∃ rs, pssAll ⟨Rnd.exact, lp, A, fun i => (b i).neg, V2, 0, tol⟩ maxiter l = .ok rs) ↔
      ∀ k ∈ l, ∃ x, United A b x ∧ -(V2 k).b < x k := fun l => by
    rw [pssAll_returns]
    refine forall₂_congr fun k _ => (C74_orthant_algo ⟨Rnd.exact, lp, A, fun i => (b i).neg, V2, k, tol⟩
      ⟨fun _ => rfl, hlp, hc, hA, hnb, s2.1, s2.2.1 k⟩ z2 s2.2.2 (w2 k) maxiter hmax).1.trans ?_
    constructor
    · rintro ⟨x, hx, h⟩
      exact ⟨_, neg _ _ n2 x hx, by dsimp only at h ⊢; linarith⟩
    · rintro ⟨x, hx, h⟩
      exact ⟨_, neg _ _ n1 x hx, by dsimp only at h ⊢; linarith⟩
  unfold pss
  dsimp only
  have f2' : (fun i => ((b i).rmul Rnd.exact 1).rmul Rnd.exact (-1)) = fun i => (b i).neg := by
    rw [← f2]
    funext i
    rw [congrFun f1 i]
  rw [f2', f1, e1, e2, hnus]
  generalize (nu.elim (List.finRange (m + 1)) fun k => [k]) = l
  cases h1 : pssAll ⟨Rnd.exact, lp, A, b, V1, 0, tol⟩ maxiter l with
  | error e =>
    refine ⟨fun ⟨X, h⟩ => (by cases h), fun h => ?_⟩
    obtain ⟨rs, hr⟩ := (r1 l).2 fun k hk => (h k hk).1
    rw [h1] at hr; cases hr
  | ok inf =>
    dsimp only
    cases h2 : pssAll ⟨Rnd.exact, lp, A, fun i => (b i).neg, V2, 0, tol⟩ maxiter l with
    | error e =>
      refine ⟨fun ⟨X, h⟩ => (by cases h), fun h => ?_⟩
      obtain ⟨rs, hr⟩ := (r2 l).2 fun k hk => (h k hk).2
      rw [h2] at hr; cases hr
    | ok sup =>
      exact ⟨fun _ k hk => ⟨(r1 l).1 ⟨inf, h1⟩ k hk, (r2 l).1 ⟨sup, h2⟩ k hk⟩, fun _ => ⟨_, rfl⟩⟩

/-- In particular `PSS` returns when no component is the same for all solutions. -/
theorem C74_orthant_spread_partial {n m : ℕ} (lp : LpSolver K (PssRow n m) (Fin (m + 1))) (hlp : LpOK lp)
    (hc : LpComplete lp) (V1 V2 : Fin (m + 1) → Iv K) (start : (Fin n → Iv K) → Fin (m + 1) → Iv K) (tol : K)
    (maxiter : ℤ) (hmax : 0 ≤ maxiter) (A : Fin n → Fin (m + 1) → Iv K) (b : Fin n → Iv K)
    (hA : ∀ i j, Ordinary (A i j)) (hb : ∀ i, Ordinary (b i)) (e1 : start b = V1) (e2 : start (fun i => (b i).neg) = V2)
    (s1 : StartOK V1 A b) (s2 : StartOK V2 A fun i => (b i).neg)
    (z1 : ∀ j, ¬ (0 : K) ∈ V1 j) (z2 : ∀ j, ¬ (0 : K) ∈ V2 j)
    (w1 : ∀ nu, ∃ j, j ≠ nu ∧ tol ≤ (V1 j).b - (V1 j).a) (w2 : ∀ nu, ∃ j, j ≠ nu ∧ tol ≤ (V2 j).b - (V2 j).a)
    (hsp : ∀ k, ∃ x y, United A b x ∧ United A b y ∧ x k < y k) (nu : Option (Fin (m + 1))) :
    ∃ X, pss Rnd.exact lp start tol maxiter A b nu = .ok X := by
  refine (C74_orthant_partial lp hlp hc V1 V2 start tol maxiter hmax A b hA hb e1 e2 s1 s2 z1 z2 w1 w2 nu).2 fun k _ => ?_
  obtain ⟨x, y, hx, hy, hxy⟩ := hsp k
  refine ⟨⟨x, hx, hxy.trans_le (s1.2.2 y hy k).2⟩, y, hy, lt_of_le_of_lt ?_ hxy⟩
  have h : United A (fun i => (b i).neg) fun j => -x j := united_neg A b _ x hx fun i t ht => by
    rw [Iv.mem_def] at ht ⊢
    exact ⟨neg_le_neg ht.2, neg_le_neg ht.1⟩
  have := (s2.2.2 _ h k).2
  linarith

/-- The hypotheses hold, and both answers occur: with the start bound `[1, 10]` a solution lies below `10` … -/
example : (∃ r, pssAlgo (pssZP 1) 0 = .ok r) ∧ ∃ x, United pssZA pssZb x ∧ x 0 < 10 := by
  have hP := pssZP_ok 1 (by norm_num) (by norm_num)
  have h := (C74_orthant_algo (pssZP 1) hP
    (by intro j; fin_cases j <;> norm_num [pssZP, pssZV, Iv.mem_def])
    (fun x hx j => by
      have := pssZ_solution x hx
      fin_cases j <;> norm_num [pssZP, pssZV, Iv.mem_def] <;> constructor <;> linarith [this.1.1, this.1.2, this.2.1, this.2.2])
    ⟨1, by norm_num [pssZP], by norm_num [pssZP, pssZV]⟩ 0 le_rfl).1
  have r : ∃ r, pssAlgo (pssZP 1) 0 = .ok r :=
    ⟨_, pssZ_algo _ _ (by norm_num) (pssZ_exact_two _ (by norm_num) (by norm_num) (by norm_num)) 0 le_rfl⟩
  exact ⟨r, h.1 r⟩

/-- … and for the point system `x₀ = 2, x₁ ∈ [1, 2]` with the start bound `[1, 2]` none does, and `algo` raises. -/
example : pssAlgo (⟨Rnd.exact, pssLpEx 2 1, fun i j => if i = j then ⟨.classical, 1, 1⟩ else ⟨.classical, 0, 0⟩,
    ![⟨.classical, 2, 2⟩, ⟨.classical, 1, 2⟩], fun _ => ⟨.classical, 1, 2⟩, 0, 1 / 10 ^ 12⟩ : PssArg ℚ 2 1) 0 =
      .error .indexError := by
  have sol : ∀ x : Fin 2 → ℚ, United (fun i j : Fin 2 => if i = j then (⟨.classical, 1, 1⟩ : Iv ℚ) else ⟨.classical, 0, 0⟩)
      ![⟨.classical, 2, 2⟩, ⟨.classical, 1, 2⟩] x → x 0 = 2 ∧ 1 ≤ x 1 ∧ x 1 ≤ 2 := by
    rintro x ⟨A, hA, b, hb, he⟩
    have a00 := hA 0 0
    have a01 := hA 0 1
    have a10 := hA 1 0
    have a11 := hA 1 1
    have b0 := hb 0
    have b1 := hb 1
    have e0 := he 0
    have e1 := he 1
    norm_num [Iv.mem_def] at a00 a01 a10 a11 b0 b1
    simp only [Fin.sum_univ_two, apply] at e0 e1
    have q00 := le_antisymm a00.2 a00.1
    have q01 := le_antisymm a01.2 a01.1
    have q10 := le_antisymm a10.2 a10.1
    have q11 := le_antisymm a11.2 a11.1
    have q0 := le_antisymm b0.2 b0.1
    rw [q00, q01, q0] at e0
    rw [q10, q11] at e1
    refine ⟨by linarith, by linarith [b1.1], by linarith [b1.2]⟩
  refine (C74_orthant_algo _ ⟨fun _ => rfl, lpChoice_ok _ _, lpChoice_complete _ _, ?_, ?_, ?_, ?_⟩ ?_ ?_ ?_ 0 le_rfl).2.2 ?_
  · intro i j; dsimp only; split <;> norm_num [Ordinary]
  · intro i; fin_cases i <;> norm_num [Ordinary]
  · intro i; norm_num [Ordinary]
  · norm_num
  · intro j; norm_num [Iv.mem_def]
  · intro x hx j
    have := sol x hx
    fin_cases j <;> norm_num [Iv.mem_def] <;> constructor <;> linarith [this.1, this.2.1, this.2.2]
  · exact ⟨1, by norm_num, by norm_num⟩
  · rintro ⟨x, hx, hlt⟩
    have := (sol x hx).1
    dsimp only at hlt
    linarith

end IntvalPy
