import Verif.ModelSysProp
import Verif.PropsRecFun
import Verif.PropsRalgb
import Mathlib.Tactic.Linarith
import Mathlib.Tactic.Positivity
import Mathlib.Data.Real.Sqrt

/-!
# C88: the measure of variability `ive`
-/

set_option autoImplicit false
set_option linter.unusedSectionVars false

namespace IntvalPy

open Spec

variable {K : Type*} [Field K] [LinearOrder K] [IsStrictOrderedRing K] {m n : ℕ}

/-- Spec: a corner of an interval matrix, i.e. a matrix all of whose entries are endpoints. -/
def IsCorner (M : Fin m → Fin n → K) (A : Fin m → Fin n → Iv K) : Prop :=
  ∀ k l, M k l = (A k l).a ∨ M k l = (A k l).b

/-- Spec: the matrix that a pass of the loop should draw for given coin tosses. -/
def drawn (A : Fin m → Fin n → Iv K) (coin : Fin m → Fin n → Bool) : Fin m → Fin n → K :=
  fun k l => if coin k l then (A k l).b else (A k l).a

omit [IsStrictOrderedRing K] in
theorem NpF.lt_trans {x y z : NpF K} (h1 : x.lt y = true) (h2 : y.lt z = true) : x.lt z = true := by
  rcases x with x | p | _ <;> rcases y with y | q | _ <;> rcases z with z | r | _ <;>
    simp only [NpF.lt, decide_eq_true_eq, Bool.not_eq_true', Bool.and_eq_true, reduceCtorEq] at *
  · exact h1.trans h2
  all_goals simp_all

omit [IsStrictOrderedRing K] in
/-- The loop keeps a least one of the start value and the drawn condition numbers. -/
theorem iveCond_spec (cond : (Fin m → Fin n → K) → NpF K) (I S : Fin m → Fin n → K)
    (coins : List (Fin m → Fin n → Bool)) (acc : NpF K) :
    (iveCond cond I S coins acc = acc ∨
      (iveCond cond I S coins acc).lt acc = true ∧
        ∃ coin ∈ coins, iveCond cond I S coins acc = cond (iveCorner I S coin)) ∧
    ∀ coin ∈ coins, (cond (iveCorner I S coin)).lt (iveCond cond I S coins acc) = false := by
  induction coins generalizing acc with
  | nil => exact ⟨.inl rfl, by simp⟩
  | cons coin coins ih =>
    simp only [iveCond]
    by_cases h : (cond (iveCorner I S coin)).lt acc = true
    · rw [if_pos h]
      obtain ⟨h1, h2⟩ := ih (cond (iveCorner I S coin))
      refine ⟨.inr ?_, ?_⟩
      · rcases h1 with h1 | ⟨h1, c, hc, h3⟩
        · rw [h1]; exact ⟨h, coin, by simp, rfl⟩
        · exact ⟨NpF.lt_trans h1 h, c, by simp [hc], h3⟩
      · intro c hc
        rcases List.mem_cons.mp hc with rfl | hc
        · rcases h1 with h1 | ⟨h1, _⟩
          · rw [h1]
            cases hx : cond (iveCorner I S c) <;> simp [NpF.lt]
          · by_contra h4
            have h4 := NpF.lt_trans (Bool.eq_true_of_not_eq_false h4) h1
            revert h4
            cases hx : cond (iveCorner I S c) <;> simp [NpF.lt]
        · exact h2 c hc
    · rw [if_neg h]
      obtain ⟨h1, h2⟩ := ih acc
      refine ⟨?_, ?_⟩
      · rcases h1 with h1 | ⟨h1, c, hc, h3⟩
        · exact .inl h1
        · exact .inr ⟨h1, c, by simp [hc], h3⟩
      · intro c hc
        rcases List.mem_cons.mp hc with rfl | hc
        · by_contra h4
          have h4 := Bool.eq_true_of_not_eq_false h4
          rcases h1 with h1 | ⟨h1, _⟩
          · rw [h1] at h4; exact h h4
          · exact h (NpF.lt_trans h4 h1)
        · exact h2 c hc

omit [IsStrictOrderedRing K] in
theorem iveCond_append (cond : (Fin m → Fin n → K) → NpF K) (I S : Fin m → Fin n → K)
    (coins more : List (Fin m → Fin n → Bool)) (acc : NpF K) :
    iveCond cond I S (coins ++ more) acc = iveCond cond I S more (iveCond cond I S coins acc) := by
  induction coins generalizing acc with
  | nil => rfl
  | cons c coins ih => simp only [List.cons_append, iveCond]; exact ih _

/-- What is assumed of `np.sqrt`. -/
structure SqOk (sq : K → K) : Prop where
  zero : sq 0 = 0
  pos : ∀ z, 0 < z → 0 < sq z

theorem SqOk.nonneg {sq : K → K} (h : SqOk sq) {z : K} (hz : 0 ≤ z) : 0 ≤ sq z := by
  rcases hz.eq_or_lt with rfl | hz
  · rw [h.zero]
  · exact (h.pos z hz).le

theorem sumSq_pos {b : Fin m → Iv K} (hb : ∃ i, (b i).a ≠ 0 ∨ (b i).b ≠ 0) : 0 < ∑ i, (b i).mag ^ 2 := by
  obtain ⟨i, hi⟩ := hb
  refine Finset.sum_pos' (fun j _ => sq_nonneg _) ⟨i, Finset.mem_univ _, ?_⟩
  have : 0 < (b i).mag := by
    rw [Iv.mag]
    rcases hi with hi | hi
    · exact lt_max_of_lt_left (abs_pos.mpr hi)
    · exact lt_max_of_lt_right (abs_pos.mpr hi)
  positivity

/-- C88, partial: with right endpoint views, a nonzero right-hand side and at least one draw with a finite condition number the
result is `sqrt(n) * f * c * ||x|| / ||b||`, where `f = Tol(x)` is the value reached by the optimiser and `c` is
the condition number of a corner of `A`, least among the drawn ones. -/
theorem C88_ive_partial (P : RalgPar K n) (big : K) (hm : 0 < m) (hn : 0 < n) (x0 : Fin n → K) (sq : K → K) (hsq : SqOk sq)
    (cond : (Fin m → Fin n → K) → NpF K) (hcond : ∀ M, cond M ≠ .inf true)
    (A : Fin m → Fin n → Iv K) (b : Fin m → Iv K) (hA : ∀ i j, Ordinary (A i j))
    (hb : ∃ i, (b i).a ≠ 0 ∨ (b i).b ≠ 0) (coins : List (Fin m → Fin n → Bool))
    (hc : ∃ coin ∈ coins, ∃ v, cond (drawn A coin) = .fin v) :
    ∃ x f M c, iveOf P big x0 sq cond A b (fun i j => (A i j).a) (fun i j => (A i j).b) coins
        = .ok (.fin (sq n * f * c * (sq (∑ j, x j ^ 2) / sq (∑ i, (b i).mag ^ 2)))) ∧
      tolValue Rnd.exact A b (fun _ => 1) x = .ok f ∧
      (∀ f0, tolValue Rnd.exact A b (fun _ => 1) x0 = .ok f0 → f0 ≤ f) ∧
      IsCorner M A ∧ InMat M A ∧ cond M = .fin c ∧
      (∃ coin ∈ coins, M = drawn A coin) ∧
      (∀ coin ∈ coins, ∀ v, cond (drawn A coin) = .fin v → c ≤ v) := by
  obtain ⟨o, h1, h2, h3⟩ := C36_maximize .tol P big hm hn A b (fun _ => 1) (fun i j => (A i j).a)
    (fun i j => (A i j).b) x0 hA
  obtain ⟨h4, h5⟩ := iveCond_spec cond (fun i j => (A i j).a) (fun i j => (A i j).b) coins (.inf false)
  obtain ⟨c0, hc0, v0, hv0⟩ := hc
  have h6 := h5 c0 hc0
  change (cond (drawn A c0)).lt _ = false at h6
  rw [hv0] at h6
  rcases h4 with h4 | ⟨h4, coin, hcoin, h7⟩
  · rw [h4] at h6; simp [NpF.lt] at h6
  change _ = cond (drawn A coin) at h7
  have h8 : ∃ c, cond (drawn A coin) = .fin c := by
    rcases hx : cond (drawn A coin) with c | p | _
    · exact ⟨c, rfl⟩
    · cases p
      · rw [h7, hx] at h4; simp [NpF.lt] at h4
      · exact absurd hx (hcond _)
    · rw [h7, hx] at h4; simp [NpF.lt] at h4
  obtain ⟨c, hcc⟩ := h8
  have hpos : sq (∑ i, (b i).mag ^ 2) ≠ 0 := (hsq.pos _ (sumSq_pos hb)).ne'
  have hcor : IsCorner (drawn A coin) A := by
    intro k l
    rw [drawn]
    by_cases h : coin k l = true
    · exact .inr (if_pos h)
    · exact .inl (if_neg h)
  refine ⟨o.xr, o.fr, drawn A coin, c, ?_, h2, h3, hcor, ?_, hcc, ⟨coin, hcoin, rfl⟩, ?_⟩
  · rw [iveOf, h1]
    simp only [iveValue, h7, hcc, NpF.mul, NpF.div, if_neg hpos]
  · intro k l
    have := hA k l
    rcases hcor k l with h | h <;> rw [h]
    · exact ⟨le_refl _, this.2⟩
    · exact ⟨this.2, le_refl _⟩
  · intro c1 hc1 v hv
    have := h5 c1 hc1
    change (cond (drawn A c1)).lt _ = false at this
    rw [hv, h7, hcc] at this
    simpa [NpF.lt] using this

/-- C88: when the optimiser ends at a tolerable point, the result is never below the product with the least
condition number of all matrices in `A`. -/
theorem C88_upper_bound (P : RalgPar K n) (big : K) (hm : 0 < m) (hn : 0 < n) (x0 : Fin n → K) (sq : K → K)
    (hsq : SqOk sq) (cond : (Fin m → Fin n → K) → NpF K) (hcond : ∀ M, cond M ≠ .inf true)
    (A : Fin m → Fin n → Iv K) (b : Fin m → Iv K) (hA : ∀ i j, Ordinary (A i j))
    (hb : ∃ i, (b i).a ≠ 0 ∨ (b i).b ≠ 0) (coins : List (Fin m → Fin n → Bool))
    (hc : ∃ coin ∈ coins, ∃ v, cond (drawn A coin) = .fin v) (c0 : K)
    (h0 : ∀ M, InMat M A → ∀ v, cond M = .fin v → c0 ≤ v) :
    ∃ x f v, iveOf P big x0 sq cond A b (fun i j => (A i j).a) (fun i j => (A i j).b) coins = .ok (.fin v) ∧
      tolValue Rnd.exact A b (fun _ => 1) x = .ok f ∧
      (Tolerable A b x → sq n * f * c0 * (sq (∑ j, x j ^ 2) / sq (∑ i, (b i).mag ^ 2)) ≤ v) := by
  obtain ⟨x, f, M, c, h1, h2, _, _, h3, h4, _, _⟩ := C88_ive_partial P big hm hn x0 sq hsq cond hcond A b hA hb coins hc
  refine ⟨x, f, _, h1, h2, fun ht => ?_⟩
  have hf : 0 ≤ f := by
    obtain ⟨v, h5, h6⟩ := C30_tol_iff_tolerable hm hn A b (fun _ => 1) x hA (by simp)
    rw [h2] at h5
    cases h5
    exact h6.mpr ht
  have hn' : 0 ≤ sq (n : K) := hsq.nonneg (Nat.cast_nonneg n)
  have hr : 0 ≤ sq (∑ j, x j ^ 2) / sq (∑ i, (b i).mag ^ 2) :=
    div_nonneg (hsq.nonneg (Finset.sum_nonneg fun _ _ => sq_nonneg _))
      (hsq.nonneg (Finset.sum_nonneg fun _ _ => sq_nonneg _))
  exact mul_le_mul_of_nonneg_right (mul_le_mul_of_nonneg_left (h0 M h3 c h4) (mul_nonneg hn' hf)) hr

/-- C88: more passes with the same first draws never increase the result, if the optimiser ended at a tolerable
point. -/
theorem C88_more_passes (P : RalgPar K n) (big : K) (hm : 0 < m) (hn : 0 < n) (x0 : Fin n → K) (sq : K → K)
    (hsq : SqOk sq) (cond : (Fin m → Fin n → K) → NpF K) (hcond : ∀ M, cond M ≠ .inf true)
    (A : Fin m → Fin n → Iv K) (b : Fin m → Iv K) (hA : ∀ i j, Ordinary (A i j))
    (hb : ∃ i, (b i).a ≠ 0 ∨ (b i).b ≠ 0) (coins more : List (Fin m → Fin n → Bool))
    (hc : ∃ coin ∈ coins, ∃ v, cond (drawn A coin) = .fin v) (hx : Tolerable A b x0) :
    ∃ v v', iveOf P big x0 sq cond A b (fun i j => (A i j).a) (fun i j => (A i j).b) coins = .ok (.fin v) ∧
      iveOf P big x0 sq cond A b (fun i j => (A i j).a) (fun i j => (A i j).b) (coins ++ more) = .ok (.fin v') ∧
      v' ≤ v := by
  have hc' : ∃ coin ∈ coins ++ more, ∃ v, cond (drawn A coin) = .fin v := by
    obtain ⟨c, h1, h2⟩ := hc
    exact ⟨c, List.mem_append_left _ h1, h2⟩
  obtain ⟨o, g1, g2, g3⟩ := C36_maximize .tol P big hm hn A b (fun _ => 1) (fun i j => (A i j).a)
    (fun i j => (A i j).b) x0 hA
  have hf : 0 ≤ o.fr := by
    obtain ⟨v, h5, h6⟩ := C30_tol_iff_tolerable hm hn A b (fun _ => 1) x0 hA (by simp)
    exact (h6.mpr hx).trans (g3 v h5)
  have key : ∀ l, (∃ coin ∈ l, ∃ v, cond (drawn A coin) = .fin v) →
      ∃ c, iveCond cond (fun i j => (A i j).a) (fun i j => (A i j).b) l (.inf false) = .fin c := by
    intro l ⟨c0, hc0, v0, hv0⟩
    obtain ⟨h4, h5⟩ := iveCond_spec cond (fun i j => (A i j).a) (fun i j => (A i j).b) l (.inf false)
    have h6 := h5 c0 hc0
    change (cond (drawn A c0)).lt _ = false at h6
    rw [hv0] at h6
    rcases h4 with h4 | ⟨h4, coin, hcoin, h7⟩
    · rw [h4] at h6; simp [NpF.lt] at h6
    · rcases hx : cond (iveCorner (fun i j => (A i j).a) (fun i j => (A i j).b) coin) with c | p | _
      · exact ⟨c, h7.trans hx⟩
      · cases p
        · rw [h7, hx] at h4; simp [NpF.lt] at h4
        · exact absurd hx (hcond _)
      · rw [h7, hx] at h4; simp [NpF.lt] at h4
  obtain ⟨c, k1⟩ := key coins hc
  obtain ⟨c', k2⟩ := key (coins ++ more) hc'
  have hle : c' ≤ c := by
    have k3 := k2
    rw [iveCond_append, k1] at k3
    rcases (iveCond_spec cond (fun i j => (A i j).a) (fun i j => (A i j).b) more (.fin c)).1 with h | ⟨h, _⟩
    · rw [k3] at h; cases h; exact le_refl _
    · rw [k3] at h; simp only [NpF.lt, decide_eq_true_eq] at h; exact h.le
  have hpos : sq (∑ i, (b i).mag ^ 2) ≠ 0 := (hsq.pos _ (sumSq_pos hb)).ne'
  have hn' : 0 ≤ sq (n : K) := hsq.nonneg (Nat.cast_nonneg n)
  have hr : 0 ≤ sq (∑ j, o.xr j ^ 2) / sq (∑ i, (b i).mag ^ 2) :=
    div_nonneg (hsq.nonneg (Finset.sum_nonneg fun _ _ => sq_nonneg _))
      (hsq.nonneg (Finset.sum_nonneg fun _ _ => sq_nonneg _))
  refine ⟨sq n * o.fr * c * (sq (∑ j, o.xr j ^ 2) / sq (∑ i, (b i).mag ^ 2)),
    sq n * o.fr * c' * (sq (∑ j, o.xr j ^ 2) / sq (∑ i, (b i).mag ^ 2)),
    by rw [iveOf, g1]; simp only [iveValue, k1, NpF.mul, NpF.div, if_neg hpos],
    by rw [iveOf, g1]; simp only [iveValue, k2, NpF.mul, NpF.div, if_neg hpos], ?_⟩
  exact mul_le_mul_of_nonneg_right (mul_le_mul_of_nonneg_left hle (mul_nonneg hn' hf)) hr

/-- C88: without a draw of finite condition number (in particular for `N = 0`), or for a zero right-hand side,
the result is an infinity or `nan`, and never raises. -/
theorem C88_not_finite (P : RalgPar K n) (big : K) (hm : 0 < m) (hn : 0 < n) (x0 : Fin n → K) (sq : K → K)
    (hsq : SqOk sq) (cond : (Fin m → Fin n → K) → NpF K)
    (A : Fin m → Fin n → Iv K) (b : Fin m → Iv K) (hA : ∀ i j, Ordinary (A i j))
    (coins : List (Fin m → Fin n → Bool))
    (h : (∀ coin ∈ coins, ∀ v, cond (drawn A coin) ≠ .fin v) ∨ ∀ i, (b i).a = 0 ∧ (b i).b = 0) :
    ∃ r, iveOf P big x0 sq cond A b (fun i j => (A i j).a) (fun i j => (A i j).b) coins = .ok r ∧ ∀ v, r ≠ .fin v := by
  obtain ⟨o, h1, h2, h3⟩ := C36_maximize .tol P big hm hn A b (fun _ => 1) (fun i j => (A i j).a)
    (fun i j => (A i j).b) x0 hA
  refine ⟨_, by rw [iveOf, h1], ?_⟩
  intro v hv
  have mulfin : ∀ x y : NpF K, ∀ w, x.mul y = .fin w → ∃ p q, x = .fin p ∧ y = .fin q := by
    intro x y w hw
    rcases x with x | p | _ <;> rcases y with y | q | _ <;> simp only [NpF.mul, reduceCtorEq] at hw
    · exact ⟨x, y, rfl, rfl⟩
    · split_ifs at hw
    · split_ifs at hw
  obtain ⟨p, q, e1, e2⟩ := mulfin _ _ _ hv
  obtain ⟨_, r, _, e3⟩ := mulfin _ _ _ e1
  rcases h with h | h
  · rcases (iveCond_spec cond (fun i j => (A i j).a) (fun i j => (A i j).b) coins (.inf false)).1 with g | ⟨_, c, hc, g⟩
    · rw [g] at e3; cases e3
    · rw [g] at e3; exact h c hc r e3
  · have : (∑ i, (b i).mag ^ 2) = 0 := Finset.sum_eq_zero fun i _ => by
      rw [Iv.mag, (h i).1, (h i).2]; simp
    rw [this, hsq.zero, NpF.div, if_pos rfl] at e2
    split_ifs at e2

/-- C88 (zero right-hand side): the infinity carries the sign of the maximum of `Tol`; it is `nan` if the maximum or the maximum
point is zero. -/
theorem C88_zero_rhs (sq : K → K) (hsq : SqOk sq) (b : Fin m → Iv K) (hb : ∀ i, (b i).a = 0 ∧ (b i).b = 0) (xr : Fin n → K)
    (hx : 0 ≤ sq (∑ j, xr j ^ 2)) (fr c : K) (hc : 0 < sq n * c) :
    iveValue sq b xr fr (.fin c) =
      if fr = 0 ∨ sq (∑ j, xr j ^ 2) = 0 then .nan else .inf (decide (fr < 0)) := by
  have h0 : (∑ i, (b i).mag ^ 2) = 0 := Finset.sum_eq_zero fun i _ => by
    rw [Iv.mag, (hb i).1, (hb i).2]; simp
  have e : sq n * fr * c = fr * (sq n * c) := by ring
  simp only [iveValue, NpF.mul, h0, hsq.zero, NpF.div, if_true, e]
  by_cases h1 : sq (∑ j, xr j ^ 2) = 0
  · simp [h1]
  · have h2 : ¬ sq (∑ j, xr j ^ 2) < 0 := not_lt.mpr hx
    have h3 : fr * (sq n * c) < 0 ↔ fr < 0 := by
      constructor
      · intro h
        by_contra hf
        exact absurd (mul_nonneg (not_lt.mp hf) hc.le) (not_le.mpr h)
      · intro h
        exact mul_neg_of_neg_of_pos h hc
    have hz : fr * (sq n * c) = 0 ↔ fr = 0 := by simp [hc.ne']
    simp only [h1, if_false, h2, decide_false, h3, hz, or_false, Bool.bne_false]

/-- The hypotheses of `C88_zero_rhs` are satisfiable. -/
example : iveValue (m := 1) (n := 1) (fun z : ℚ => if z = 0 then 0 else 1) (fun _ => ⟨.classical, 0, 0⟩) (fun _ => 2) (-3) (.fin 1)
    = .inf true := by decide +kernel

/-- C88 (no draw of finite condition number): the infinity carries the sign of the maximum of `Tol`. -/
theorem C88_no_draw (sq : K → K) (b : Fin m → Iv K) (xr : Fin n → K) (fr : K) (hn : 0 < sq n) (hf : fr ≠ 0)
    (hx : 0 < sq (∑ j, xr j ^ 2)) (hb : 0 < sq (∑ i, (b i).mag ^ 2)) :
    iveValue sq b xr fr (.inf false) = .inf (decide (fr < 0)) := by
  have h1 : sq n * fr < 0 ↔ fr < 0 := by
    constructor
    · intro h
      by_contra hc
      exact absurd (mul_nonneg hn.le (not_lt.mp hc)) (not_le.mpr h)
    · intro h
      exact mul_neg_of_pos_of_neg hn h
  have h2 : 0 < sq (∑ j, xr j ^ 2) / sq (∑ i, (b i).mag ^ 2) := div_pos hx hb
  have h3 : ¬ sq n * fr = 0 := by simp [hn.ne', hf]
  simp only [iveValue, NpF.mul, NpF.div, if_neg hb.ne', if_neg h3, if_neg h2.ne', h1, not_lt.mpr h2.le, decide_false,
    Bool.bne_false]

/-- The hypotheses of `C88_no_draw` are satisfiable. -/
example : iveValue (m := 1) (n := 1) (fun z : ℚ => if z = 0 then 0 else 1) (fun _ => ⟨.classical, 0, 3⟩) (fun _ => 2) (-3) (.inf false)
    = .inf true := by decide +kernel

/-- C88 (full statement, false of the code): the condition number in the result is that of a matrix in `A`. -/
def C88_statement : Prop :=
  ∀ (m n : ℕ) (P : RalgPar ℚ n) (big : ℚ) (x0 : Fin n → ℚ) (sq : ℚ → ℚ)
    (cond : (Fin m → Fin n → ℚ) → NpF ℚ) (A : Fin m → Fin n → FIv) (b : Fin m → FIv)
    (coins : List (Fin m → Fin n → Bool)), 0 < m → 0 < n → SqOk sq → (∀ i j, Ordinary (ivRat (A i j))) →
    (∃ i, (ivRat (b i)).a ≠ 0 ∨ (ivRat (b i)).b ≠ 0) → coins ≠ [] → (∀ M, ∃ c, 1 ≤ c ∧ cond M = .fin c) →
    ∃ x f M c, ive P big x0 sq cond A b coins
        = .ok (.fin (sq n * f * c * (sq (∑ j, x j ^ 2) / sq (∑ i, (ivRat (b i)).mag ^ 2)))) ∧
      tolValue Rnd.exact (fun i j => ivRat (A i j)) (fun i => ivRat (b i)) (fun _ => 1) x = .ok f ∧
      (∀ f0, tolValue Rnd.exact (fun i j => ivRat (A i j)) (fun i => ivRat (b i)) (fun _ => 1) x0 = .ok f0 → f0 ≤ f) ∧
      InMat M (fun i j => ivRat (A i j)) ∧ cond M = .fin c

/-- A matrix whose first entry has integer endpoints and the others have float ones. -/
def iveMat : Fin 2 → Fin 2 → FIv := fun i j =>
  if i = j then ⟨.classical, .int 1, .int 2⟩ else ⟨.classical, .dbl (.fin (1/2)), .dbl (.fin (3/4))⟩

/-- A right-hand side for `iveMat`. -/
def iveRhs : Fin 2 → FIv := fun _ => ⟨.classical, .int 0, .int 10⟩

/-- Parameters with which the optimiser stops at the starting point. -/
def ivePar : RalgPar ℚ 2 := ⟨1, 1, 1, 5, 2, 3, 1, 3, 1, 1, fun _ => 0, fun x => x⟩

/-- A condition number that is 1 for the diagonal matrices and 2 for the others. -/
def iveTestCond (M : Fin 2 → Fin 2 → ℚ) : NpF ℚ := if M 0 1 = 0 then .fin 1 else .fin 2

theorem ive_witness : ive ivePar 1 (fun _ => 1) (fun z => if z = 0 then 0 else 1) iveTestCond iveMat iveRhs
    [fun _ _ => false] = .ok (.fin (3/2)) := by
  decide +kernel

theorem ive_start : tolValue Rnd.exact (fun i j => ivRat (iveMat i j)) (fun i => ivRat (iveRhs i)) (fun _ => 1)
    (fun _ => 1) = .ok (3/2) := by
  decide +kernel

/-- C88 is false of the code: the drawn matrix is built from the truncated views, so that it need not lie in `A`;
here it is diagonal although no matrix in `A` is. -/
theorem C88_false : ¬ C88_statement := by
  intro h
  obtain ⟨x, f, M, c, h1, _, h2, h3, h4⟩ := h 2 2 ivePar 1 (fun _ => 1) (fun z => if z = 0 then 0 else 1) iveTestCond
    iveMat iveRhs [fun _ _ => false] (by norm_num) (by norm_num)
    ⟨by simp, fun z hz => by rw [if_neg hz.ne']; norm_num⟩ (by intro i j; unfold Ordinary; revert i j; decide +kernel)
    ⟨0, by decide +kernel⟩ (by simp)
    (by
      intro M
      unfold iveTestCond
      split_ifs
      · exact ⟨1, le_refl _, rfl⟩
      · exact ⟨2, by norm_num, rfl⟩)
  rw [ive_witness] at h1
  simp only [Except.ok.injEq, NpF.fin.injEq] at h1
  have hf := h2 _ ive_start
  have hM : M 0 1 ≠ 0 := by
    have := (h3 0 1).1
    have e : (ivRat (iveMat 0 1)).a = 1/2 := by decide +kernel
    rw [e] at this
    intro h0
    rw [h0] at this
    norm_num at this
  rw [iveTestCond, if_neg hM] at h4
  cases h4
  have hb : (∑ i, (ivRat (iveRhs i)).mag ^ 2) = 200 := by decide +kernel
  rw [hb] at h1
  by_cases hx : ∑ j, x j ^ 2 = 0
  · rw [if_pos hx] at h1; norm_num at h1
  · rw [if_neg hx] at h1; norm_num at h1; linarith

/-- C88, partial, on the level of the stored endpoints: for the matrices whose views are right (C63) `ive` is the
function of `C88_ive_partial`. -/
theorem C88_views_right (P : RalgPar ℚ n) (big : ℚ) (x0 : Fin n → ℚ) (sq : ℚ → ℚ)
    (cond : (Fin m → Fin n → ℚ) → NpF ℚ) (A : Fin m → Fin n → FIv) (b : Fin m → FIv)
    (coins : List (Fin m → Fin n → Bool))
    (ha : ∃ l, arrA (rowMajor A) = .ok l ∧ l.map Num.val = (rowMajor A).map fun X => X.a.val)
    (hb : ∃ l, arrB (rowMajor A) = .ok l ∧ l.map Num.val = (rowMajor A).map fun X => X.b.val) :
    ive P big x0 sq cond A b coins = iveOf P big x0 sq cond (fun i j => ivRat (A i j)) (fun i => ivRat (b i))
      (fun i j => (ivRat (A i j)).a) (fun i j => (ivRat (A i j)).b) coins := by
  have h := C32_views_right A b (fun _ => 1) ha hb
  obtain ⟨la, h1, _⟩ := ha
  obtain ⟨lb, h2, _⟩ := hb
  rw [optimizeData, h1, h2] at h
  simp only [Except.ok.injEq] at h
  have e1 : (viewMat la : Fin m → Fin n → ℚ) = fun i j => (ivRat (A i j)).a := congrArg RecData.infA h
  have e2 : (viewMat lb : Fin m → Fin n → ℚ) = fun i j => (ivRat (A i j)).b := congrArg RecData.supA h
  rw [ive, h1, h2]
  simp only [e1, e2]

/-- Numpy's square root of reals satisfies what is assumed. -/
theorem sqOk_real : SqOk Real.sqrt := ⟨Real.sqrt_zero, fun _ hz => Real.sqrt_pos.mpr hz⟩

/-- The hypotheses of C88 are satisfiable by a system with a tolerable starting point and two draws. -/
example : ∃ v v', iveOf (K := ℝ) (m := 2) (n := 2) ⟨1, 1, 1, 5, 2, 3, 1, 3, 1, 1, fun _ => 0, fun x => x⟩ 1 (fun _ => 1)
      Real.sqrt (fun M => .fin (1 + |M 0 1|))
      (fun i j => if i = j then ⟨.classical, 1, 2⟩ else ⟨.classical, 1/2, 3/4⟩) (fun _ => ⟨.classical, 0, 10⟩)
      (fun i j => (if i = j then (⟨.classical, 1, 2⟩ : Iv ℝ) else ⟨.classical, 1/2, 3/4⟩).a)
      (fun i j => (if i = j then (⟨.classical, 1, 2⟩ : Iv ℝ) else ⟨.classical, 1/2, 3/4⟩).b)
      [fun _ _ => true] = .ok (.fin v) ∧
    iveOf (K := ℝ) (m := 2) (n := 2) ⟨1, 1, 1, 5, 2, 3, 1, 3, 1, 1, fun _ => 0, fun x => x⟩ 1 (fun _ => 1)
      Real.sqrt (fun M => .fin (1 + |M 0 1|))
      (fun i j => if i = j then ⟨.classical, 1, 2⟩ else ⟨.classical, 1/2, 3/4⟩) (fun _ => ⟨.classical, 0, 10⟩)
      (fun i j => (if i = j then (⟨.classical, 1, 2⟩ : Iv ℝ) else ⟨.classical, 1/2, 3/4⟩).a)
      (fun i j => (if i = j then (⟨.classical, 1, 2⟩ : Iv ℝ) else ⟨.classical, 1/2, 3/4⟩).b)
      ([fun _ _ => true] ++ [fun _ _ => false]) = .ok (.fin v') ∧ v' ≤ v := by
  refine C88_more_passes _ _ (by norm_num) (by norm_num) _ _ sqOk_real _ (by simp)
    (fun i j => if i = j then ⟨.classical, 1, 2⟩ else ⟨.classical, 1/2, 3/4⟩) _ ?_ ⟨0, by simp⟩ _ _
    ⟨_, List.mem_singleton.mpr rfl, _, rfl⟩ ?_
  · intro i j
    fin_cases i <;> fin_cases j <;> norm_num [Ordinary]
  · intro A' hA' i
    have h := fun j => hA' i j
    have h0 := h 0
    have h1 := h 1
    rw [apply, Fin.sum_univ_two]
    fin_cases i <;> simp only [Iv.mem_def] at h0 h1 ⊢ <;> norm_num at h0 h1 ⊢ <;> constructor <;> linarith [h0.1, h0.2, h1.1, h1.2]

end IntvalPy
