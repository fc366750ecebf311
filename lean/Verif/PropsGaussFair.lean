import Verif.PropsGSConv
import Verif.PropsArray

/-!
# When the elimination of `Gauss` is right (C37)

Line 46 of `Gauss.py` subtracts `r_l * A_jl` in row `i` where the elimination asks for `r_i * A_jl`. The result still
encloses the solution set whenever, at every pass, the product that is subtracted contains the product that should be
(`FairRun`). Two families of systems of any size have this property: columns that are constant below the diagonal and
lower triangular matrices, both when no rows are exchanged; strict dominance of the diagonal over its column rules
out exchanges and failures.
-/

set_option autoImplicit false
set_option linter.unusedSectionVars false

namespace IntvalPy
open Spec
variable {K : Type*} [Field K] [LinearOrder K] [IsStrictOrderedRing K]

/-- `P S j k q` holds for every pass of the forward loop that is carried out: `S` is the system at its beginning, `j` the
column, `k` the row of the pivot and `q` the reciprocal of the pivot. -/
def EachPass (R : Rnd K) {n : ℕ} (P : GaussSt K n → Fin n → Fin n → Iv K → Prop) :
    List (Fin n) → GaussSt K n → Prop
  | [], _ => True
  | j :: js, S => ∀ k q, argmaxOn (fun i => (S.A i j).mig) ((List.finRange n).filter fun i => j ≤ i) = some k →
      0 < (S.A k j).mig → Iv.recip R (S.A k j).cls (S.A k j) = .ok q →
        P S j k q ∧ EachPass R P js ((S.swap j k).eliminate R j q)

/-- The columns treated by the forward loop. -/
def gaussCols (n : ℕ) : List (Fin n) := (List.finRange n).filter fun j => j.val + 1 < n

/-- What is subtracted from row `i` in column `l` contains what the elimination asks for. -/
def FairPass (R : Rnd K) {n : ℕ} (S : GaussSt K n) (j k : Fin n) (q : Iv K) : Prop :=
  let T := S.swap j k
  ∀ i l, j < i → j < l →
    Sub (((T.A i j).mul R q).mul R (T.A j l)) (((T.A l j).mul R q).mul R (T.A j l))

/-- The pivot is the diagonal entry: no rows are exchanged. -/
def DiagPass {n : ℕ} (_ : GaussSt K n) (j k : Fin n) (_ : Iv K) : Prop := k = j

theorem gaussStep_pass (R : Rnd K) {n : ℕ} (S S' : GaussSt K n) (j : Fin n) (h : gaussStep R S j = .ok S') :
    ∃ k q, argmaxOn (fun i => (S.A i j).mig) ((List.finRange n).filter fun i => j ≤ i) = some k ∧
      0 < (S.A k j).mig ∧ Iv.recip R (S.A k j).cls (S.A k j) = .ok q ∧
      S' = (S.swap j k).eliminate R j q := by
  unfold gaussStep at h
  split at h
  · cases h
  · rename_i k hk
    split_ifs at h with hm
    have e : (S.swap j k).A j j = S.A k j := by simp [GaussSt.swap]
    dsimp only at h
    rw [e] at h
    cases hq : Iv.recip R (S.A k j).cls (S.A k j) with
    | error e => rw [hq] at h; cases h
    | ok q =>
      rw [hq] at h
      cases h
      exact ⟨k, q, hk, hm, hq, rfl⟩

/-- `x` solves a point system inside `S` after the columns before `m` have been treated. -/
def PartSolved {n : ℕ} (m : ℕ) (S : GaussSt K n) (x : Fin n → K) : Prop :=
  ∃ A' : Fin n → Fin n → K, (∀ i l, (i ≤ l ∨ m ≤ l.val) → A' i l ∈ S.A i l) ∧ ∃ b', InVec b' S.b ∧
    ∀ i, ∑ l, (if i ≤ l ∨ m ≤ l.val then A' i l * x l else 0) = b' i

theorem swap_lt {n : ℕ} {j k i : Fin n} (hjk : j ≤ k) (hi : i < j) : Equiv.swap j k i = i :=
  Equiv.swap_apply_of_ne_of_ne hi.ne (hi.trans_le hjk).ne

theorem swap_le {n : ℕ} {j k i : Fin n} (hjk : j ≤ k) (hi : j ≤ i) : j ≤ Equiv.swap j k i := by
  by_cases e1 : i = j
  · rw [e1, Equiv.swap_apply_left]; exact hjk
  by_cases e2 : i = k
  · rw [e2, Equiv.swap_apply_right]
  rw [Equiv.swap_apply_of_ne_of_ne e1 e2]; exact hi

/-- The exchange keeps the solutions. -/
theorem PartSolved.swap {n : ℕ} {S : GaussSt K n} {x : Fin n → K} {j k : Fin n} (hjk : j ≤ k)
    (h : PartSolved j.val S x) : PartSolved j.val (S.swap j k) x := by
  obtain ⟨A', hA', b', hb', he⟩ := h
  refine ⟨fun i l => A' (Equiv.swap j k i) l, fun i l hil => ?_, fun i => b' (Equiv.swap j k i), fun i => hb' _,
    fun i => ?_⟩
  · simp only [GaussSt.swap]
    split_ifs with hl
    · exact hA' _ _ (.inr hl)
    · have hl' : l < j := not_le.mp hl
      have hi : i < j := lt_of_le_of_lt (hil.resolve_right fun h => hl h) hl'
      rw [swap_lt hjk hi]
      exact hA' i l hil
  · dsimp only
    rw [← he]
    refine Finset.sum_congr rfl fun l _ => ?_
    by_cases hi : i < j
    · rw [swap_lt hjk hi]
    · have h1 : j ≤ i := not_lt.mp hi
      have h2 := swap_le hjk h1
      have c : ∀ i' : Fin n, j ≤ i' → ((i' ≤ l ∨ j.val ≤ l.val) ↔ j.val ≤ l.val) := fun i' hi' =>
        ⟨fun h => h.elim (fun h => (hi'.trans h : j ≤ l)) id, .inr⟩
      simp only [c i h1, c _ h2]

/-- One elimination keeps the solutions when the subtracted products contain those that should be subtracted. -/
theorem PartSolved.eliminate (R : Rnd K) {n : ℕ} {S : GaussSt K n} {x : Fin n → K} {j : Fin n} {q : Iv K}
    (hA : ∀ i j, Ordinary (S.A i j)) (hb : ∀ i, Ordinary (S.b i)) (hq : Ordinary q)
    (hinv : ∀ t ∈ S.A j j, t ≠ 0 ∧ 1 / t ∈ q)
    (hf : ∀ i l, j < i → j < l →
      Sub (((S.A i j).mul R q).mul R (S.A j l)) (((S.A l j).mul R q).mul R (S.A j l)))
    (h : PartSolved j.val S x) : PartSolved (j.val + 1) (S.eliminate R j q) x := by
  obtain ⟨A', hA', b', hb', he⟩ := h
  obtain ⟨hne, hin⟩ := hinv _ (hA' j j (.inl (le_refl _)))
  have mr : ∀ i, j < i → A' i j * (1 / A' j j) ∈ (S.A i j).mul R q ∧ Ordinary ((S.A i j).mul R q) := fun i _ =>
    (mul_point R _ _ (hA i j) hq _ _ (hA' i j (.inr (le_refl _))) hin).symm
  refine ⟨fun i l => if j < i ∧ j < l then A' i l - A' i j * (1 / A' j j) * A' j l else A' i l, fun i l hil => ?_,
    fun i => if j < i then b' i - A' i j * (1 / A' j j) * b' j else b' i, fun i => ?_, fun i => ?_⟩
  · simp only [GaussSt.eliminate]
    split_ifs with hc
    · have h2 := mul_point R _ _ (mr i hc.1).2 (hA j l) _ _ (mr i hc.1).1 (hA' j l (.inl hc.2.le))
      exact C01_sub_encloses R _ _ _ ⟨_, hA' i l (.inr (le_of_lt hc.2)), _, hf i l hc.1 hc.2 _ h2.2, rfl⟩
    · exact hA' i l (hil.imp_right fun h => by omega)
  · simp only [GaussSt.eliminate]
    split_ifs with hc
    · have h2 := mul_point R _ _ (mr i hc).2 (hb j) _ _ (mr i hc).1 (hb' j)
      exact C01_sub_encloses R _ _ _ ⟨_, hb' i, _, h2.2, rfl⟩
    · exact hb' i
  · dsimp only
    by_cases hi : j < i
    · rw [if_pos hi, ← he i, ← he j, Finset.mul_sum, ← Finset.sum_sub_distrib]
      refine Finset.sum_congr rfl fun l _ => ?_
      by_cases hl : j < l
      · have c1 : i ≤ l ∨ j.val + 1 ≤ l.val := .inr hl
        have c2 : i ≤ l ∨ j.val ≤ l.val := .inr (le_of_lt hl)
        have c3 : j ≤ l ∨ j.val ≤ l.val := .inl hl.le
        rw [if_pos c1, if_pos c2, if_pos c3, if_pos ⟨hi, hl⟩]
        ring
      · have n1 : ¬ (i ≤ l ∨ j.val + 1 ≤ l.val) := by
          rintro (h | h)
          · exact hl (hi.trans_le h)
          · exact hl h
        rw [if_neg n1]
        by_cases e : l = j
        · subst e
          have c2 : i ≤ l ∨ l.val ≤ l.val := .inr (le_refl _)
          have c3 : l ≤ l ∨ l.val ≤ l.val := .inl (le_refl _)
          rw [if_pos c2, if_pos c3]
          field_simp
          ring
        · have hlj : l < j := lt_of_le_of_ne (not_lt.mp hl) e
          have n2 : ¬ (i ≤ l ∨ j.val ≤ l.val) := by
            rintro (h | h)
            · exact (hi.trans_le h).not_gt hlj
            · exact absurd hlj (not_lt.mpr h)
          have n3 : ¬ (j ≤ l ∨ j.val ≤ l.val) := by
            rintro (h | h)
            · exact absurd hlj (not_lt.mpr h)
            · exact absurd hlj (not_lt.mpr h)
          rw [if_neg n2, if_neg n3]
          ring
    · rw [if_neg hi, ← he i]
      refine Finset.sum_congr rfl fun l _ => ?_
      have hi' : i ≤ j := not_lt.mp hi
      have c : (i ≤ l ∨ j.val + 1 ≤ l.val) ↔ (i ≤ l ∨ j.val ≤ l.val) := by
        simp only [Fin.le_def] at hi' ⊢
        omega
      simp only [c, hi, false_and, if_false]

/-- The columns `m`, `m + 1`, …, up to the last but one. -/
def ColsFrom {n : ℕ} : ℕ → List (Fin n) → Prop
  | m, [] => n ≤ m + 1
  | m, j :: js => j.val = m ∧ ColsFrom (m + 1) js

theorem colsFrom_range {n : ℕ} (js : List (Fin n)) (m : ℕ) (h : js.map Fin.val = List.range' m js.length)
    (hn : n ≤ m + js.length + 1) : ColsFrom m js := by
  induction js generalizing m with
  | nil => show n ≤ m + 1; simpa using hn
  | cons j js ih =>
    simp only [List.map_cons, List.length_cons, List.range'_succ, List.cons.injEq] at h
    refine ⟨h.1, ih (m + 1) h.2 ?_⟩
    simp only [List.length_cons] at hn
    omega

theorem colsFrom_start (n : ℕ) : ColsFrom 0 (gaussCols n) := by
  cases n with
  | zero => simp [gaussCols, ColsFrom]
  | succ k =>
    have e : gaussCols (k + 1) = (List.finRange k).map Fin.castSucc := by
      unfold gaussCols
      rw [List.finRange_succ_last, List.filter_append]
      simp
    have l : (gaussCols (k + 1)).length = k := by rw [e]; simp
    refine colsFrom_range _ 0 ?_ (by omega)
    rw [l, e, List.map_map]
    have : (Fin.val ∘ Fin.castSucc : Fin k → ℕ) = Fin.val := rfl
    rw [this, List.map_coe_finRange_eq_range, List.range_eq_range']

/-- The forward loop keeps the solutions when every pass is fair. -/
theorem forward_fair (R : Rnd K) {n : ℕ} (js : List (Fin n)) (m : ℕ) (hm : ColsFrom m js) (S S' : GaussSt K n)
    (hA : ∀ i j, Ordinary (S.A i j)) (hb : ∀ i, Ordinary (S.b i)) (x : Fin n → K)
    (hf : EachPass R (FairPass R) js S) (hx : PartSolved m S x) (h : gaussForward R js S = .ok S') :
    (∀ i j, Ordinary (S'.A i j)) ∧ (∀ i, Ordinary (S'.b i)) ∧ TriSolved S' x := by
  induction js generalizing m S with
  | nil =>
    simp only [gaussForward, Except.ok.injEq] at h
    subst h
    refine ⟨hA, hb, ?_⟩
    obtain ⟨A', hA', b', hb', he⟩ := hx
    refine ⟨A', fun i l hil => hA' i l (.inl hil), b', hb', fun i => ?_⟩
    rw [← he i]
    refine Finset.sum_congr rfl fun l _ => ?_
    have hm' : n ≤ m + 1 := hm
    have c : (i ≤ l ∨ m ≤ l.val) ↔ i ≤ l := ⟨fun h => h.elim id fun h => by
      rw [Fin.le_def]; omega, .inl⟩
    simp only [c]
  | cons j js ih =>
    obtain ⟨rfl, hm'⟩ := hm
    unfold gaussForward at h
    split at h
    · cases h
    · rename_i S1 hS1
      obtain ⟨o1, o2⟩ := gaussStep_ordinary R S S1 hA hb j hS1
      obtain ⟨k, q, hk, hp, hq, rfl⟩ := gaussStep_pass R S S1 j hS1
      obtain ⟨f1, f2⟩ := hf k q hk hp hq
      have hjk : j ≤ k := by simpa using (List.mem_filter.mp (argmaxOn_spec _ _ _ hk).1).2
      have h0 := mig_pos_not_mem _ hp
      obtain ⟨q1, q2⟩ := recip_pivot R _ _ (hA k j) h0 hq
      obtain ⟨s1, s2⟩ := swap_ordinary S hA hb j k
      have e : (S.swap j k).A j j = S.A k j := by simp [GaussSt.swap]
      refine ih (j.val + 1) hm' _ o1 o2 f2 ?_ h
      refine (hx.swap hjk).eliminate R s1 s2 q1 ?_ f1
      rw [e]
      exact fun t ht => ⟨fun ht0 => h0 (ht0 ▸ ht), q2 t ht⟩

/-- C37 (partial): for every size and rounding, the result encloses the united solution set when every product that is
subtracted during the elimination contains the one that should be subtracted. -/
theorem C37_gauss_fair_partial (R : Rnd K) {n : ℕ} (A : Fin n → Fin n → Iv K) (b X : Fin n → Iv K)
    (hA : ∀ i j, Ordinary (A i j)) (hb : ∀ i, Ordinary (b i))
    (hf : EachPass R (FairPass R) (gaussCols n) ⟨A, b⟩) (h : gauss R A b = .ok X) (x : Fin n → K)
    (hx : United A b x) : InVec x X := by
  refine gauss_of_forward R A b X x h fun S hS => ?_
  refine forward_fair R _ 0 (colsFrom_start n) ⟨A, b⟩ S hA hb x hf ?_ hS
  obtain ⟨A', hA', b', hb', he⟩ := hx
  refine ⟨A', fun i l _ => hA' i l, b', hb', fun i => ?_⟩
  rw [← he i, apply]
  exact Finset.sum_congr rfl fun l _ => if_pos (.inr (Nat.zero_le _))

/-! ### Columns constant below the diagonal, and lower triangular matrices -/

/-- In the part that is still to be treated, every column is constant below the diagonal. -/
def ColConst {n : ℕ} (m : ℕ) (A : Fin n → Fin n → Iv K) : Prop :=
  ∀ l : Fin n, m ≤ l.val → ∀ i i', l < i → l < i' → A i l = A i' l

/-- In the part that is still to be treated, everything above the diagonal is zero. -/
def LowerTri {n : ℕ} (m : ℕ) (A : Fin n → Fin n → Iv K) : Prop :=
  ∀ i : Fin n, m ≤ i.val → ∀ l, i < l → A i l = ⟨.classical, 0, 0⟩

theorem swap_self' {n : ℕ} (S : GaussSt K n) (j : Fin n) : S.swap j j = S := by
  simp only [GaussSt.swap, Equiv.swap_self, Equiv.refl_apply, ite_self]

theorem ColConst.step (R : Rnd K) {n : ℕ} {S : GaussSt K n} {j : Fin n} (h : ColConst j.val S.A) (q : Iv K) :
    ColConst (j.val + 1) (S.eliminate R j q).A := by
  intro l hl i i' hi hi'
  have hl' : j < l := hl
  simp only [GaussSt.eliminate, hl'.trans hi, hl'.trans hi', hl', and_self, if_true]
  rw [h l (le_of_lt hl') i i' hi hi']

theorem mul_zero_iv (R : Rnd K) {X : Iv K} (hX : Ordinary X) : X.mul R ⟨.classical, 0, 0⟩ = ⟨.classical, 0, 0⟩ := by
  simp [Iv.mul, hX.1, Iv.mulCC, R.dn_zero, R.up_zero]

theorem LowerTri.step (R : Rnd K) {n : ℕ} {S : GaussSt K n} {j : Fin n} (hA : ∀ i j, Ordinary (S.A i j))
    (h : LowerTri j.val S.A) {q : Iv K} (hq : Ordinary q) : LowerTri (j.val + 1) (S.eliminate R j q).A := by
  intro i hi l hil
  have hi' : j < i := hi
  simp only [GaussSt.eliminate, hi', hi'.trans hil, and_self, if_true]
  rw [h i (le_of_lt hi') l hil, h j (le_refl _) l (hi'.trans hil),
    mul_zero_iv R (C02_mul_ordinary R _ _ (hA l j) hq)]
  simp [Iv.sub, R.dn_zero, R.up_zero]

/-- Without exchanges every pass is fair. -/
theorem fair_of_diag (R : Rnd K) {n : ℕ} (js : List (Fin n)) (m : ℕ) (hm : ColsFrom m js) (S : GaussSt K n)
    (hA : ∀ i j, Ordinary (S.A i j)) (hb : ∀ i, Ordinary (S.b i)) (hc : ColConst m S.A ∨ LowerTri m S.A)
    (hd : EachPass R DiagPass js S) : EachPass R (FairPass R) js S := by
  induction js generalizing m S with
  | nil => trivial
  | cons j js ih =>
    obtain ⟨rfl, hm'⟩ := hm
    intro k q hk hp hq
    obtain ⟨d1, d2⟩ := hd k q hk hp hq
    obtain rfl : k = j := d1
    rw [swap_self'] at d2 ⊢
    have h0 := mig_pos_not_mem _ hp
    obtain ⟨q1, q2⟩ := recip_pivot R _ _ (hA k k) h0 hq
    obtain ⟨o1, o2⟩ := eliminate_ordinary R S hA hb k q q1
    constructor
    · simp only [FairPass, swap_self']
      intro i l hi hl
      rcases hc with hc | hc
      · rw [hc k (le_refl _) i l hi hl]; exact fun s hs => hs
      · rw [hc k (le_refl _) l hl, mul_zero_iv R (C02_mul_ordinary R _ _ (hA i k) q1),
          mul_zero_iv R (C02_mul_ordinary R _ _ (hA l k) q1)]
        exact fun s hs => hs
    · refine ih (k.val + 1) hm' _ o1 o2 ?_ d2
      exact hc.imp (fun h => h.step R q) fun h => h.step R hA q1

/-- C37 (partial): for every size and rounding, when no rows are exchanged the result encloses the united solution set of
every system whose columns are constant below the diagonal. -/
theorem C37_gauss_columns_partial (R : Rnd K) {n : ℕ} (A : Fin n → Fin n → Iv K) (b X : Fin n → Iv K)
    (hA : ∀ i j, Ordinary (A i j)) (hb : ∀ i, Ordinary (b i)) (hc : ∀ l i i', l < i → l < i' → A i l = A i' l)
    (hd : EachPass R DiagPass (gaussCols n) ⟨A, b⟩) (h : gauss R A b = .ok X) (x : Fin n → K)
    (hx : United A b x) : InVec x X :=
  C37_gauss_fair_partial R A b X hA hb
    (fair_of_diag R _ 0 (colsFrom_start n) _ hA hb (.inl fun l _ => hc l) hd) h x hx

/-- C37 (partial): for every size and rounding, when no rows are exchanged the result encloses the united solution set of
every system with a lower triangular matrix. -/
theorem C37_gauss_lower_partial (R : Rnd K) {n : ℕ} (A : Fin n → Fin n → Iv K) (b X : Fin n → Iv K)
    (hA : ∀ i j, Ordinary (A i j)) (hb : ∀ i, Ordinary (b i)) (hz : ∀ i l, i < l → A i l = ⟨.classical, 0, 0⟩)
    (hd : EachPass R DiagPass (gaussCols n) ⟨A, b⟩) (h : gauss R A b = .ok X) (x : Fin n → K)
    (hx : United A b x) : InVec x X :=
  C37_gauss_fair_partial R A b X hA hb
    (fair_of_diag R _ 0 (colsFrom_start n) _ hA hb (.inr fun i _ => hz i) hd) h x hx

/-! ### Strict dominance in the columns -/

theorem le_mig_iff {X : Iv K} (hX : Ordinary X) {t : K} (ht : 0 < t) : t ≤ X.mig ↔ t ≤ X.a ∨ X.b ≤ -t := by
  have hab := hX.2
  by_cases h0 : (0 : K) ∈ X
  · have h1 : X.a ≤ 0 := h0.1
    have h2 : 0 ≤ X.b := h0.2
    rw [Iv.mig, if_pos (containsNum_iff.mpr h0)]
    constructor
    · intro h; linarith
    · rintro (h | h) <;> linarith
  · rw [Iv.mig, if_neg (fun h => h0 (containsNum_iff.mp h))]
    rcases not_mem_zero_cases hX.2 h0 with h | h
    · rw [abs_of_pos h, abs_of_pos (h.trans_le hab), min_eq_left hab]
      constructor
      · exact .inl
      · rintro (h' | h') <;> linarith
    · rw [abs_of_neg h, abs_of_neg (lt_of_le_of_lt hab h), min_eq_right (neg_le_neg hab)]
      constructor
      · intro h'; exact .inr (by linarith)
      · rintro (h' | h') <;> linarith

theorem mag_ends {X : Iv K} (hX : Ordinary X) : -X.mag ≤ X.a ∧ X.b ≤ X.mag := (mag_le_iff hX).mp (le_refl _)

theorem mig_le_mag {X : Iv K} (hX : Ordinary X) : X.mig ≤ X.mag := by
  obtain ⟨x, hx, e⟩ := (C20_characteristics X hX).2.1
  rw [← e]
  exact ((C20_characteristics X hX).1 x hx).2

theorem mag_sub_le {X Y : Iv K} (hX : Ordinary X) (hY : Ordinary Y) : (X.sub Rnd.exact Y).mag ≤ X.mag + Y.mag := by
  obtain ⟨x1, x2⟩ := mag_ends hX
  obtain ⟨y1, y2⟩ := mag_ends hY
  rw [mag_le_iff (C01_add_sub_ordinary _ _ _ hX hY).2]
  simp only [Iv.sub, hX.1, hY.1, Rnd.exact_dn, Rnd.exact_up, id]
  constructor <;> linarith

theorem mig_sub_ge {X Y : Iv K} (hX : Ordinary X) (hY : Ordinary Y) (h : Y.mag < X.mig) :
    X.mig - Y.mag ≤ (X.sub Rnd.exact Y).mig := by
  obtain ⟨y1, y2⟩ := mag_ends hY
  have hy : 0 ≤ Y.mag := mag_nn Y hY
  rw [le_mig_iff (C01_add_sub_ordinary _ _ _ hX hY).2 (by linarith)]
  simp only [Iv.sub, hX.1, hY.1, Rnd.exact_dn, Rnd.exact_up, id]
  rcases (le_mig_iff hX (lt_of_le_of_lt hy h)).mp (le_refl _) with h' | h'
  · left; linarith
  · right; linarith

theorem mag_mul_le {X Y : Iv K} (hX : Ordinary X) (hY : Ordinary Y) : (X.mul Rnd.exact Y).mag ≤ X.mag * Y.mag := by
  have key : ∀ x ∈ X, ∀ y ∈ Y, |x * y| ≤ X.mag * Y.mag := fun x hx y hy => by
    rw [abs_mul]
    exact mul_le_mul ((C20_characteristics X hX).1 x hx).2 ((C20_characteristics Y hY).1 y hy).2 (abs_nonneg _)
      (mag_nn X hX)
  obtain ⟨_, ⟨x, hx, y, hy, e⟩, ⟨x', hx', y', hy', e'⟩⟩ := C11_mul_range X Y hX hY
  rw [mag_le_iff (C02_mul_ordinary _ _ _ hX hY), e, e']
  exact ⟨(abs_le.mp (key x hx y hy)).1, (abs_le.mp (key x' hx' y' hy')).2⟩

theorem mag_recip_le {X q : Iv K} (hX : Ordinary X) (h : 0 < X.mig) (hq : Iv.recip Rnd.exact X.cls X = .ok q) :
    q.mag * X.mig ≤ 1 := by
  have h0 := mig_pos_not_mem _ h
  obtain ⟨q1, _⟩ := recip_pivot _ _ _ hX h0 hq
  have key : ∀ x ∈ X, |1 / x| ≤ 1 / X.mig := fun x hx => by
    rw [abs_div, abs_one]
    exact one_div_le_one_div_of_le h ((C20_characteristics X hX).1 x hx).1
  have : q.mag ≤ 1 / X.mig := by
    rw [mag_le_iff q1]
    unfold Iv.recip at hq
    split_ifs at hq
    cases hq
    simp only [Rnd.exact_dn, Rnd.exact_up, id]
    exact ⟨(abs_le.mp (key X.b ⟨hX.2, le_refl _⟩)).1, (abs_le.mp (key X.a ⟨le_refl _, hX.2⟩)).2⟩
  rwa [le_div_iff₀ h] at this

/-- In the part that is still to be treated, the diagonal dominates its column strictly. -/
def ColDom {n : ℕ} (m : ℕ) (A : Fin n → Fin n → Iv K) : Prop :=
  ∀ l : Fin n, m ≤ l.val → ∑ i, (if m ≤ i.val ∧ i ≠ l then (A i l).mag else 0) < (A l l).mig

theorem ColDom.pos {n : ℕ} {m : ℕ} {A : Fin n → Fin n → Iv K} (hA : ∀ i j, Ordinary (A i j)) (h : ColDom m A)
    (l : Fin n) (hl : m ≤ l.val) : 0 < (A l l).mig :=
  lt_of_le_of_lt (Finset.sum_nonneg fun i _ => by split_ifs; exacts [mag_nn _ (hA i l), le_refl _]) (h l hl)

theorem ColDom.lt {n : ℕ} {m : ℕ} {A : Fin n → Fin n → Iv K} (hA : ∀ i j, Ordinary (A i j)) (h : ColDom m A)
    (l i : Fin n) (hl : m ≤ l.val) (hi : m ≤ i.val) (hil : i ≠ l) : (A i l).mag < (A l l).mig := by
  refine lt_of_le_of_lt ?_ (h l hl)
  have := Finset.single_le_sum (f := fun i => if m ≤ i.val ∧ i ≠ l then (A i l).mag else 0)
    (fun i _ => by split_ifs; exacts [mag_nn _ (hA i l), le_refl _]) (Finset.mem_univ i)
  simpa [hi, hil] using this

/-- One exact pass without exchange keeps the dominance when the subtracted products are at most those that should be
subtracted. -/
theorem ColDom.step {n : ℕ} {S : GaussSt K n} {j : Fin n} (hA : ∀ i j, Ordinary (S.A i j)) (h : ColDom j.val S.A)
    (hc : ColConst j.val S.A ∨ LowerTri j.val S.A) {q : Iv K} (hq : Ordinary q)
    (hq1 : q.mag * (S.A j j).mig ≤ 1) : ColDom (j.val + 1) (S.eliminate Rnd.exact j q).A := by
  have hp := h.pos hA j (le_refl _)
  intro l hl
  have hl' : j < l := hl
  have qn := mag_nn q hq
  have hJ := mag_nn _ (hA j l)
  -- what is subtracted from row `i`
  have sub_le : ∀ i, j < i → (((S.A l j).mul Rnd.exact q).mul Rnd.exact (S.A j l)).mag ≤
      (S.A i j).mag * q.mag * (S.A j l).mag := by
    intro i hi
    rcases hc with hc | hc
    · rw [hc j (le_refl _) l i hl' hi]
      exact (mag_mul_le (C02_mul_ordinary _ _ _ (hA i j) hq) (hA j l)).trans
        (mul_le_mul_of_nonneg_right (mag_mul_le (hA i j) hq) hJ)
    · rw [hc j (le_refl _) l hl', mul_zero_iv _ (C02_mul_ordinary _ _ _ (hA l j) hq)]
      simp [Iv.mag]
  have ord := C02_mul_ordinary Rnd.exact _ _ (C02_mul_ordinary Rnd.exact _ _ (hA l j) hq) (hA j l)
  -- the multipliers add up to less than one
  have hsum : ∑ i, (if j.val ≤ i.val ∧ i ≠ j then (S.A i j).mag else 0) * q.mag ≤ 1 := by
    rw [← Finset.sum_mul]
    have := h j (le_refl _)
    nlinarith
  have hcol := h l (le_of_lt hl')
  have main : ∑ i, (if j.val + 1 ≤ i.val ∧ i ≠ l then ((S.eliminate Rnd.exact j q).A i l).mag else 0)
      ≤ ∑ i, ((if j.val ≤ i.val ∧ i ≠ l then (S.A i l).mag else 0) - (if i = j then (S.A j l).mag else 0)
        + (if j.val ≤ i.val ∧ i ≠ j then (S.A i j).mag else 0) * q.mag * (S.A j l).mag
        - (if i = l then (S.A l j).mag * q.mag * (S.A j l).mag else 0)) := by
    refine Finset.sum_le_sum fun i _ => ?_
    by_cases e1 : i = j
    · subst e1
      have n1 : ¬ (i.val + 1 ≤ i.val ∧ i ≠ l) := by omega
      have n2 : i.val ≤ i.val ∧ i ≠ l := ⟨le_refl _, hl'.ne⟩
      have n3 : ¬ (i.val ≤ i.val ∧ i ≠ i) := by simp
      rw [if_neg n1, if_pos n2, if_pos rfl, if_neg n3, if_neg hl'.ne]
      simp
    · by_cases e2 : i = l
      · subst e2
        have n1 : ¬ (j.val + 1 ≤ i.val ∧ i ≠ i) := by simp
        have n2 : ¬ (j.val ≤ i.val ∧ i ≠ i) := by simp
        have n3 : j.val ≤ i.val ∧ i ≠ j := ⟨le_of_lt hl', e1⟩
        rw [if_neg n1, if_neg n2, if_neg e1, if_pos n3, if_pos rfl]
        simp
      · by_cases hi : j < i
        · have n1 : j.val + 1 ≤ i.val ∧ i ≠ l := ⟨hi, e2⟩
          have n2 : j.val ≤ i.val ∧ i ≠ l := ⟨le_of_lt hi, e2⟩
          have n3 : j.val ≤ i.val ∧ i ≠ j := ⟨le_of_lt hi, e1⟩
          rw [if_pos n1, if_pos n2, if_neg e1, if_pos n3, if_neg e2]
          simp only [GaussSt.eliminate, hi, hl', and_self, if_true]
          have := mag_sub_le (hA i l) ord
          have := sub_le i hi
          linarith
        · have hij : i < j := lt_of_le_of_ne (not_lt.mp hi) e1
          have n1 : ¬ (j.val + 1 ≤ i.val ∧ i ≠ l) := fun h => hi h.1
          have n2 : ¬ (j.val ≤ i.val ∧ i ≠ l) := fun h => absurd hij (not_lt.mpr h.1)
          have n3 : ¬ (j.val ≤ i.val ∧ i ≠ j) := fun h => absurd hij (not_lt.mpr h.1)
          rw [if_neg n1, if_neg n2, if_neg e1, if_neg n3, if_neg e2]
          simp
  rw [Finset.sum_sub_distrib, Finset.sum_add_distrib, Finset.sum_sub_distrib, ← Finset.sum_mul] at main
  simp only [Finset.sum_ite_eq', Finset.mem_univ, if_true] at main
  have sl := sub_le l hl'
  have hprod : (∑ i, (if j.val ≤ i.val ∧ i ≠ j then (S.A i j).mag else 0) * q.mag) * (S.A j l).mag ≤ (S.A j l).mag := by
    nlinarith
  have hpart : (S.A l j).mag * q.mag * (S.A j l).mag ≤ (S.A j l).mag := by
    have h1 : (S.A l j).mag * q.mag ≤ 1 := by
      have := h.lt hA j l (le_refl _) (le_of_lt hl') hl'.ne'
      nlinarith
    nlinarith
  have hjl := h.lt hA l j (le_of_lt hl') (le_refl _) hl'.ne
  have hmig := mig_sub_ge (hA l l) ord (by linarith)
  have e : (S.eliminate Rnd.exact j q).A l l =
      (S.A l l).sub Rnd.exact (((S.A l j).mul Rnd.exact q).mul Rnd.exact (S.A j l)) := by
    simp only [GaussSt.eliminate, hl', and_self, if_true]
  rw [e]
  linarith

theorem recip_exists (R : Rnd K) {X : Iv K} (h : 0 < X.mig) (c : Cls) (hX : Ordinary X) :
    ∃ q, Iv.recip R c X = .ok q := by
  have h0 := mig_pos_not_mem _ h
  have ha : X.a ≠ 0 := fun e => h0 ⟨e.le, e ▸ hX.2⟩
  have hb : X.b ≠ 0 := fun e => h0 ⟨e ▸ hX.2, e.ge⟩
  exact ⟨_, by rw [Iv.recip, if_neg hb, if_neg ha]⟩

/-- The pivot of a dominated column is the diagonal entry. -/
theorem ColDom.pivot {n : ℕ} {S : GaussSt K n} {j k : Fin n} (hA : ∀ i j, Ordinary (S.A i j)) (h : ColDom j.val S.A)
    (hk : argmaxOn (fun i => (S.A i j).mig) ((List.finRange n).filter fun i => j ≤ i) = some k) : k = j := by
  obtain ⟨k1, k2⟩ := argmaxOn_spec _ _ _ hk
  have hjk : j ≤ k := by simpa using (List.mem_filter.mp k1).2
  by_contra e
  have h1 := h.lt hA j k (le_refl _) hjk e
  have h2 := k2 j (by simp)
  exact absurd (h2.trans (mig_le_mag (hA k j))) (not_le.mpr h1)

/-- In exact arithmetic dominance rules out exchanges and failures of the forward loop. -/
theorem forward_dom {n : ℕ} (js : List (Fin n)) (m : ℕ) (hm : ColsFrom m js) (S : GaussSt K n)
    (hA : ∀ i j, Ordinary (S.A i j)) (hb : ∀ i, Ordinary (S.b i)) (hc : ColConst m S.A ∨ LowerTri m S.A)
    (h : ColDom m S.A) (hd : ∀ i : Fin n, i.val < m → 0 < (S.A i i).mig) :
    EachPass Rnd.exact DiagPass js S ∧ ∃ S', gaussForward Rnd.exact js S = .ok S' ∧
      (∀ i j, Ordinary (S'.A i j)) ∧ (∀ i, Ordinary (S'.b i)) ∧ ∀ i, 0 < (S'.A i i).mig := by
  induction js generalizing m S with
  | nil =>
    refine ⟨trivial, S, rfl, hA, hb, fun i => ?_⟩
    have hm' : n ≤ m + 1 := hm
    by_cases hi : i.val < m
    · exact hd i hi
    · exact h.pos hA i (not_lt.mp hi)
  | cons j js ih =>
    obtain ⟨rfl, hm'⟩ := hm
    have hp := h.pos hA j (le_refl _)
    obtain ⟨q, hq⟩ := recip_exists Rnd.exact hp (S.A j j).cls (hA j j)
    obtain ⟨q1, _⟩ := recip_pivot _ _ _ (hA j j) (mig_pos_not_mem _ hp) hq
    obtain ⟨o1, o2⟩ := eliminate_ordinary Rnd.exact S hA hb j q q1
    have keep : ∀ i : Fin n, i.val < j.val + 1 → (S.eliminate Rnd.exact j q).A i i = S.A i i := fun i hi => by
      have : ¬ (j < i ∧ j < i) := fun h => absurd (Nat.lt_succ_iff.mp hi) (not_le.mpr h.1)
      simp only [GaussSt.eliminate, if_neg this]
    obtain ⟨r1, S', r2, r3⟩ := ih (j.val + 1) hm' (S.eliminate Rnd.exact j q) o1 o2
      (hc.imp (fun h => h.step _ q) fun h => h.step _ hA q1)
      (h.step hA hc q1 (mag_recip_le (hA j j) hp hq)) fun i hi => by
        rw [keep i hi]
        by_cases e : i = j
        · rw [e]; exact hp
        · exact hd i (lt_of_le_of_ne (Nat.lt_succ_iff.mp hi) fun h => e (Fin.ext h))
    constructor
    · intro k q' hk _ hq'
      obtain rfl := h.pivot hA hk
      rw [hq] at hq'
      cases hq'
      rw [swap_self']
      exact ⟨rfl, r1⟩
    · refine ⟨S', ?_, r3⟩
      have hk : argmaxOn (fun i => (S.A i j).mig) ((List.finRange n).filter fun i => j ≤ i) = some j := by
        cases hk : argmaxOn (fun i => (S.A i j).mig) ((List.finRange n).filter fun i => j ≤ i) with
        | none =>
          have hne : ((List.finRange n).filter fun i => j ≤ i) ≠ [] :=
            List.ne_nil_of_mem (a := j) (by simp)
          cases hl : ((List.finRange n).filter fun i => j ≤ i) with
          | nil => exact absurd hl hne
          | cons a t => rw [hl] at hk; cases hk
        | some k => rw [h.pivot hA hk]
      have hs : gaussStep Rnd.exact S j = .ok (S.eliminate Rnd.exact j q) := by
        unfold gaussStep
        rw [hk]
        dsimp only
        rw [if_pos hp, swap_self', hq]
        rfl
      unfold gaussForward
      rw [hs]
      exact r2

/-- Back substitution succeeds when no diagonal entry contains zero. -/
theorem back_total (R : Rnd K) {n : ℕ} (S : GaussSt K n) (hA : ∀ i j, Ordinary (S.A i j))
    (hb : ∀ i, Ordinary (S.b i)) (hd : ∀ i, 0 < (S.A i i).mig) (is : List (Fin n)) (X : Fin n → Iv K)
    (hX : ∀ i, Ordinary (X i)) : ∃ Y, gaussBack R S is X = .ok Y := by
  induction is generalizing X with
  | nil => exact ⟨X, rfl⟩
  | cons i is ih =>
    have hs := (subSum_encloses R (S.b i) (S.b i).a (hb i) ⟨le_refl _, (hb i).2⟩
      ((List.finRange n).filter fun l => i ≤ l) (fun l => (S.A i l).mul R (X l))
      (fun l => ((S.A i l).mul R (X l)).a) fun l _ =>
        ⟨C02_mul_ordinary R _ _ (hA i l) (hX l), le_refl _, (C02_mul_ordinary R _ _ (hA i l) (hX l)).2⟩).2
    obtain ⟨Z, h1, h2⟩ := ((C03_div_error_iff R _ _ hs (hA i i)).2).mpr (mig_pos_not_mem _ (hd i))
    obtain ⟨Y, hY⟩ := ih (Function.update X i Z) fun j => by
      by_cases e : j = i
      · subst e; rw [Function.update_self]; exact h2
      · rw [Function.update_of_ne e]; exact hX j
    refine ⟨Y, ?_⟩
    unfold gaussBack
    rw [h1]
    exact hY

/-- C37 (partial): in exact arithmetic and for every size, `Gauss` returns an enclosure of the united solution set of
every system whose diagonal dominates its columns strictly and whose columns are constant below the diagonal, or
which is lower triangular. Missing for the full statement: all other systems with three and more unknowns, where it is
false (`C37_gauss_false`, for a system with strictly dominant columns). -/
theorem C37_gauss_dominant_partial {n : ℕ} (A : Fin n → Fin n → Iv K) (b : Fin n → Iv K)
    (hA : ∀ i j, Ordinary (A i j)) (hb : ∀ i, Ordinary (b i))
    (hc : (∀ l i i', l < i → l < i' → A i l = A i' l) ∨ ∀ i l, i < l → A i l = ⟨.classical, 0, 0⟩)
    (hd : ∀ l, ∑ i, (if i ≠ l then (A i l).mag else 0) < (A l l).mig) :
    ∃ X, gauss Rnd.exact A b = .ok X ∧ (∀ i, Ordinary (X i)) ∧ ∀ x, United A b x → InVec x X := by
  have hc' : ColConst 0 A ∨ LowerTri 0 A := hc.imp (fun h l _ => h l) fun h i _ => h i
  have hd' : ColDom 0 A := fun l _ => by simpa using hd l
  obtain ⟨h1, S, h2, h3, h4, h5⟩ := forward_dom (gaussCols n) 0 (colsFrom_start n) ⟨A, b⟩ hA hb hc' hd'
    fun i hi => absurd hi (Nat.not_lt_zero _)
  obtain ⟨X, hX⟩ := back_total Rnd.exact S h3 h4 h5 (List.finRange n).reverse (fun _ => zeroIv) fun _ => ordinary_zero
  have hg : gauss Rnd.exact A b = .ok X := by
    unfold gauss
    change (match gaussForward Rnd.exact (gaussCols n) ⟨A, b⟩ with | .error e => _ | .ok S => _) = _
    rw [h2]
    exact hX
  exact ⟨X, hg, C37_gauss_ordinary _ A b X hA hb hg, fun x hx => C37_gauss_fair_partial _ A b X hA hb
    (fair_of_diag _ _ 0 (colsFrom_start n) _ hA hb hc' h1) hg x hx⟩

theorem exact_rep (t : K) : Rep (Rnd.exact : Rnd K) t := ⟨rfl, rfl⟩

/-- A matrix with the constant diagonal `D` and the constant `E` elsewhere. -/
theorem gauss_two_values {n : ℕ} (D E : Iv K) (b : Fin n → Iv K) (hD : Ordinary D) (hE : Ordinary E)
    (hb : ∀ i, Ordinary (b i)) (h : ((n : K) - 1) * E.mag < D.mig) :
    ∃ X, gauss Rnd.exact (fun i j => if i = j then D else E) b = .ok X ∧ (∀ i, Ordinary (X i)) ∧
      ∀ x, United (fun i j => if i = j then D else E) b x → InVec x X := by
  refine C37_gauss_dominant_partial _ b (fun i j => ?_) hb (.inl fun l i i' hi hi' => ?_) fun l => ?_
  · split_ifs
    exacts [hD, hE]
  · rw [if_neg hi.ne', if_neg hi'.ne']
  · rw [if_pos rfl]
    refine lt_of_eq_of_lt ?_ h
    have e : ∀ i : Fin n, (if i ≠ l then (if i = l then D else E).mag else 0) = E.mag - if i = l then E.mag else 0 := by
      intro i
      by_cases c : i = l <;> simp [c]
    simp only [e, Finset.sum_sub_distrib, Finset.sum_const, Finset.card_univ, Fintype.card_fin, nsmul_eq_mul,
      Finset.sum_ite_eq', Finset.mem_univ, if_true]
    ring

/-- C37 (partial): in exact arithmetic `Gauss` encloses the solution sets of two of the test systems the library ships, of
every size: `Shary` with parameters in the documented range, and `Neumaier` with a parameter above `2 (n - 1)`. -/
theorem C37_gauss_test_systems_partial {n : ℕ} (hn : 2 ≤ n) :
    (∀ (N : Option K) alpha beta, (∀ N', N = some N' → (n : K) - 1 ≤ N') → 0 < alpha → alpha ≤ beta → beta ≤ 1 →
      ∃ S X, sharySystem Rnd.exact n N alpha beta = .ok S ∧ gauss Rnd.exact S.1 S.2 = .ok X ∧
        ∀ x, United S.1 S.2 x → InVec x X) ∧
    (∀ theta l u : K, l ≤ u → 2 * ((n : K) - 1) < theta →
      ∃ S X, neumaierSystem Rnd.exact n theta (some l) (some u) = .ok S ∧ gauss Rnd.exact S.1 S.2 = .ok X ∧
        ∀ x, United S.1 S.2 x → InVec x X) := by
  have hn1 : (0 : K) < (n : K) - 1 := by
    have : (2 : K) ≤ n := by exact_mod_cast hn
    linarith
  obtain ⟨hS, _, _, hN, _⟩ := C56_systems_partial (Rnd.exact : Rnd K) n (by omega)
  constructor
  · intro N alpha beta hNN h0 h1 h2
    have hN' : (n : K) - 1 ≤ N.getD n := by
      cases N with
      | none => show (n : K) - 1 ≤ n; linarith
      | some N => exact hNN N rfl
    have oE : Ordinary (⟨.classical, alpha - 1, 1 - beta⟩ : Iv K) := ⟨rfl, by show alpha - 1 ≤ 1 - beta; linarith⟩
    have oD : Ordinary (⟨.classical, (n : K) - 1, N.getD n⟩ : Iv K) := ⟨rfl, hN'⟩
    have hE : (⟨.classical, alpha - 1, 1 - beta⟩ : Iv K).mag ≤ 1 - alpha := by
      rw [mag_le_iff oE]
      constructor
      · show -(1 - alpha) ≤ alpha - 1; linarith
      · show 1 - beta ≤ 1 - alpha; linarith
    have hD : (n : K) - 1 ≤ (⟨.classical, (n : K) - 1, N.getD n⟩ : Iv K).mig :=
      (le_mig_iff oD hn1).mpr (.inl (le_refl _))
    obtain ⟨X, h3, _, h4⟩ := gauss_two_values (n := n) _ _ (fun _ => ⟨.classical, 1 - (n : K), (n : K) - 1⟩) oD oE
      (fun _ => ⟨rfl, by show 1 - (n : K) ≤ n - 1; linarith⟩) (by nlinarith)
    exact ⟨_, X, hS N alpha beta hNN h0 h1 h2 (exact_rep _) (exact_rep _) (exact_rep _) (exact_rep _), h3, h4⟩
  · intro theta l u hlu ht
    have oE : Ordinary (⟨.classical, 0, 2⟩ : Iv K) := ⟨rfl, by show (0 : K) ≤ 2; norm_num⟩
    have oD : Ordinary (⟨.classical, theta, theta⟩ : Iv K) := ⟨rfl, le_refl _⟩
    have hE : (⟨.classical, 0, 2⟩ : Iv K).mag ≤ 2 := by
      rw [mag_le_iff oE]
      constructor
      · show -(2 : K) ≤ 0; norm_num
      · exact le_refl _
    have hD : theta ≤ (⟨.classical, theta, theta⟩ : Iv K).mig :=
      (le_mig_iff oD (by linarith)).mpr (.inl (le_refl _))
    obtain ⟨X, h3, _, h4⟩ := gauss_two_values (n := n) _ _ (fun _ => ⟨.classical, l, u⟩) oD oE
      (fun _ => ⟨rfl, hlu⟩) (by nlinarith)
    exact ⟨_, X, (hN theta l u hlu (exact_rep _)).1, h3, h4⟩

/-! Concrete systems with three unknowns. -/

/-- Columns constant below the diagonal, strictly dominated by it. -/
def fairA : Fin 3 → Fin 3 → Iv ℚ :=
  ![![⟨.classical, 4, 5⟩, ⟨.classical, -1, 1⟩, ⟨.classical, 1, 2⟩],
    ![⟨.classical, -1, 1⟩, ⟨.classical, 4, 6⟩, ⟨.classical, 0, 1⟩],
    ![⟨.classical, -1, 1⟩, ⟨.classical, 1, 2⟩, ⟨.classical, 4, 4⟩]]
/-- A lower triangular matrix strictly dominated by its diagonal. -/
def lowA : Fin 3 → Fin 3 → Iv ℚ :=
  ![![⟨.classical, 4, 5⟩, ⟨.classical, 0, 0⟩, ⟨.classical, 0, 0⟩],
    ![⟨.classical, -1, 1⟩, ⟨.classical, 4, 6⟩, ⟨.classical, 0, 0⟩],
    ![⟨.classical, -2, 1⟩, ⟨.classical, 1, 2⟩, ⟨.classical, 4, 4⟩]]
/-- The returned ends for the right-hand side `(6, 6, 6)`. -/
def fairRun (A : Fin 3 → Fin 3 → Iv ℚ) (i : Fin 3) : Option (ℚ × ℚ) :=
  match gauss Rnd.exact A fun _ => ⟨.classical, 6, 6⟩ with
  | .ok X => some ((X i).a, (X i).b)
  | .error _ => none

example : fairRun fairA 0 = some (-139/325, 679/325) ∧ fairRun fairA 1 = some (126/1625, 766/325) ∧
    fairRun fairA 2 = some (0, 174/65) := by decide +kernel

example : fairRun lowA 0 = some (6/5, 3/2) ∧ fairRun lowA 1 = some (3/4, 15/8) ∧ fairRun lowA 2 = some (3/16, 33/16) := by
  decide +kernel

theorem fairA_ordinary : ∀ i j, Ordinary (fairA i j) := by
  intro i j; fin_cases i <;> fin_cases j <;> norm_num [fairA, Ordinary]
theorem lowA_ordinary : ∀ i j, Ordinary (lowA i j) := by
  intro i j; fin_cases i <;> fin_cases j <;> norm_num [lowA, Ordinary]

example : ∃ X, gauss Rnd.exact fairA (fun _ => ⟨.classical, 6, 6⟩) = .ok X ∧ (∀ i, Ordinary (X i)) ∧
    ∀ x, United fairA (fun _ => ⟨.classical, 6, 6⟩) x → InVec x X := by
  refine C37_gauss_dominant_partial fairA _ fairA_ordinary (fun _ => ⟨rfl, le_refl _⟩) (.inl ?_) ?_
  · intro l i i' h h'
    fin_cases l <;> fin_cases i <;> fin_cases i' <;>
      first | rfl | exact absurd h (by decide) | exact absurd h' (by decide)
  · decide +kernel

example : ∃ X, gauss Rnd.exact lowA (fun _ => ⟨.classical, 6, 6⟩) = .ok X ∧ (∀ i, Ordinary (X i)) ∧
    ∀ x, United lowA (fun _ => ⟨.classical, 6, 6⟩) x → InVec x X := by
  refine C37_gauss_dominant_partial lowA _ lowA_ordinary (fun _ => ⟨rfl, le_refl _⟩) (.inr ?_) ?_
  · intro i l h; fin_cases l <;> fin_cases i <;> first | rfl | exact absurd h (by decide)
  · decide +kernel

example : United fairA (fun _ => ⟨.classical, 6, 6⟩) ![1, 1, 1] := by
  refine ⟨![![4, 0, 2], ![1, 5, 0], ![1, 1, 4]], ?_, fun _ => 6, fun _ => ⟨le_refl _, le_refl _⟩, ?_⟩
  · intro i j; fin_cases i <;> fin_cases j <;> norm_num [fairA, Iv.mem_def]
  · intro i; fin_cases i <;> norm_num [apply, Fin.sum_univ_succ]

/-- The point system of `C37_gauss_false` has a strictly dominant diagonal: dominance alone is not enough. -/
example : ∀ l, ∑ i, (if i ≠ l then (gaussBadA i l).mag else 0) < (gaussBadA l l).mig := by decide +kernel

end IntvalPy
