import Verif.PropsPSS
import Verif.PropsRecFun
import Mathlib.Algebra.Order.Archimedean.Basic

/-!
# C106: the bounds of `PSS` are attained

`PSS` is the method of "optimal" componentwise estimates.  On boxes without zeros `ExactOmega` solves linear programs
and its values are attained by solutions; the loop ends after finitely many passes, and what it then returns is
attained by a solution or belongs to a box narrower than the tolerance.
-/

set_option autoImplicit false
set_option linter.unusedSectionVars false

namespace IntvalPy
open Spec

variable {K : Type*} [Field K] [LinearOrder K] [IsStrictOrderedRing K]

/-- The value `q` is component `nu` of a solution whose other components lie in the box `Q`. -/
def BoxAttained {n m : ℕ} (A : Fin n → Fin (m + 1) → Iv K) (b : Fin n → Iv K) (nu : Fin (m + 1)) (Q : Fin m → Iv K)
    (q : K) : Prop :=
  ∃ x, United A b x ∧ (∀ j, x (nu.succAbove j) ∈ Q j) ∧ x nu = q

theorem npSign_unit {s : K} (h : s ≠ 0) : npSign s = 1 ∨ npSign s = -1 := by
  unfold npSign
  rcases lt_or_gt_of_ne h with h | h
  · rw [if_neg (not_lt.2 h.le), if_pos h]; exact Or.inr rfl
  · rw [if_pos h]; exact Or.inl rfl

/-- The optimal value of a linear program of `ExactOmega` with a nonzero sign is attained by a solution. -/
theorem pssLp_attained {R : Rnd K} (hnr : ∀ x, R.nr x = x) {n m : ℕ} (lp : LpSolver K (PssRow n m) (Fin (m + 1)))
    (hlp : LpOK lp) (A : Fin n → Fin (m + 1) → Iv K) (b : Fin n → Iv K) (hA : ∀ i j, Ordinary (A i j))
    (hb : ∀ i, Ordinary (b i)) (nu : Fin (m + 1)) (Q : Fin m → Iv K) (hQ : ∀ j, Ordinary (Q j))
    (h0 : ∀ j, ¬ (0 : K) ∈ Q j) (s : K) (hs : s ≠ 0) (v : K) (h : pssLp R lp A b nu Q (npSign s) = .ok v) :
    BoxAttained A b nu Q v := by
  unfold pssLp at h
  dsimp only at h
  set S : Fin (m + 1) → K := nu.insertNth (α := fun _ => K) (npSign s) fun j => npSign (Q j).a with hS
  cases hz : lp (fun j => if j = nu then npSign s else 0) (pssLpA R A S) (pssLpB b nu Q) with
  | error e => rw [hz] at h; cases h
  | ok z =>
      rw [hz] at h
      injection h with h
      dsimp only at h
      rw [sum_single_mul] at h
      have hf := (hlp _ _ _ z hz).1
      have hzpos : ∀ j, 0 ≤ z j := by
        intro j
        have := hf (.inr (.inr (.inr (.inr j))))
        simp only [pssLpA, pssLpB, ite_mul, zero_mul, Finset.sum_ite_eq, Finset.mem_univ, if_true, neg_mul,
          one_mul] at this
        linarith
      have hSu : ∀ j, S j = 1 ∨ S j = -1 := by
        intro j
        refine Fin.succAboveCases nu ?_ (fun k => ?_) j
        · rw [hS, Fin.insertNth_apply_same]
          exact npSign_unit hs
        · rw [hS, Fin.insertNth_apply_succAbove]
          refine npSign_unit fun hc => h0 k ?_
          exact ⟨hc.le, hc.symm.le.trans (hQ k).2⟩
      have habs : ∀ j, |S j * z j| = z j := by
        intro j
        rw [abs_mul, abs_of_nonneg (hzpos j)]
        rcases hSu j with e | e <;> rw [e] <;> simp
      have hmid : ∀ X : Iv K, X.mid R = X.mid Rnd.exact := by
        intro X; unfold Iv.mid; simp only [hnr, Rnd.exact_nr, id]
      have hrad : ∀ X : Iv K, X.rad R = X.rad Rnd.exact := by
        intro X; unfold Iv.rad Iv.wid; simp only [hnr, Rnd.exact_nr, id]
      refine ⟨fun j => S j * z j, ?_, fun k => ?_, ?_⟩
      · rw [united_iff (Nat.succ_pos m) A b _ hA]
        intro i
        refine ⟨(hb i).2, ?_, ?_⟩
        · have := hf (.inl i)
          simp only [pssLpA, pssLpB] at this
          refine le_trans (le_of_eq ?_) this
          unfold rowMid rowRad
          rw [← Finset.sum_sub_distrib]
          refine Finset.sum_congr rfl fun j _ => ?_
          rw [habs, hmid, hrad]
          ring
        · have := hf (.inr (.inl i))
          simp only [pssLpA, pssLpB] at this
          have e : ∑ j, (-((A i j).mid R * S j) - (A i j).rad R) * z j =
              -(rowMid (A i) (fun j => S j * z j) + rowRad (A i) fun j => S j * z j) := by
            unfold rowMid rowRad
            rw [← Finset.sum_add_distrib, ← Finset.sum_neg_distrib]
            refine Finset.sum_congr rfl fun j _ => ?_
            rw [habs, hmid, hrad]
            ring
          rw [e] at this
          linarith
      · have h1 := hf (.inr (.inr (.inl (nu.succAbove k))))
        have h2 := hf (.inr (.inr (.inr (.inl (nu.succAbove k)))))
        simp only [pssLpA, pssLpB, ite_mul, zero_mul, Finset.sum_ite_eq, Finset.mem_univ, if_true,
          Fin.insertNth_apply_succAbove, neg_mul] at h1 h2
        exact ⟨by linarith, h2⟩
      · rw [← h]
        dsimp only
        rw [hS, Fin.insertNth_apply_same, mul_comm]

/-- C106, one box without zeros: if neither end of the start bound of the component is zero, `ExactOmega` returns the
component of a solution in the box; only when the box has no solution with that component within the start bound it
may return `10**15`. -/
theorem C106_exact_box {R : Rnd K} (hnr : ∀ x, R.nr x = x) {n m : ℕ} (lp : LpSolver K (PssRow n m) (Fin (m + 1)))
    (hlp : LpOK lp) (hc : LpComplete lp) (A : Fin n → Fin (m + 1) → Iv K) (b : Fin n → Iv K)
    (hA : ∀ i j, Ordinary (A i j)) (hb : ∀ i, Ordinary (b i)) (nu : Fin (m + 1)) (Vnu : Iv K)
    (hV : -10 ^ 15 ≤ Vnu.a ∧ Vnu.b ≤ 10 ^ 15) (ha : Vnu.a ≠ 0) (hb0 : Vnu.b ≠ 0) (Q : Fin m → Iv K)
    (hQ : ∀ j, Ordinary (Q j)) (h0 : ∀ j, ¬ (0 : K) ∈ Q j) :
    BoxAttained A b nu Q (exactOmega R lp A b nu Vnu Q) ∨
      exactOmega R lp A b nu Vnu Q = 10 ^ 15 ∧ ∀ q ∈ Vnu, ¬ BoxAttained A b nu Q q := by
  unfold exactOmega
  cases h1 : pssLp R lp A b nu Q (npSign Vnu.a) with
  | ok v => exact Or.inl (pssLp_attained hnr lp hlp A b hA hb nu Q hQ h0 _ ha v h1)
  | error e1 =>
      dsimp only
      cases h2 : pssLp R lp A b nu Q (npSign Vnu.b) with
      | ok v => exact Or.inl (pssLp_attained hnr lp hlp A b hA hb nu Q hQ h0 _ hb0 v h2)
      | error e2 =>
          refine Or.inr ⟨rfl, ?_⟩
          rintro q hq ⟨x, hx, hxQ, rfl⟩
          rw [Iv.mem_def] at hq
          have hbig : |x nu| ≤ 10 ^ 15 := abs_le.2 ⟨hV.1.trans hq.1, hq.2.trans hV.2⟩
          rcases lt_or_ge 0 (x nu) with hp | hp
          · obtain ⟨v, h3, -⟩ := pssLp_le hnr lp hlp hc A b nu Q x hx hxQ h0 Vnu.b
              (Or.inl ⟨hp.trans_le hq.2, hp.le⟩) hbig
            rw [h2] at h3
            cases h3
          · obtain ⟨v, h3, -⟩ := pssLp_le hnr lp hlp hc A b nu Q x hx hxQ h0 Vnu.a
              (Or.inr (Or.inl ⟨lt_of_le_of_ne (hq.1.trans hp) ha, hp⟩)) hbig
            rw [h1] at h3
            cases h3

/-! ## Termination -/

/-- The number of bisections after which an edge of width `w` is below `tol`: every half has at most two thirds of
the width. -/
noncomputable def edgeDepth (tol w : K) : ℕ := by
  classical
  exact if h : ∃ d : ℕ, w * (2 / 3) ^ d < tol then Nat.find h else 0

theorem edgeDepth_exists [Archimedean K] {tol w : K} (ht : 0 < tol) : ∃ d : ℕ, w * (2 / 3) ^ d < tol := by
  rcases le_or_gt w 0 with hw | hw
  · exact ⟨0, by linarith⟩
  · obtain ⟨d, hd⟩ := exists_pow_lt_of_lt_one (div_pos ht hw) (show (2 / 3 : K) < 1 by norm_num)
    refine ⟨d, ?_⟩
    have := mul_lt_mul_of_pos_left hd hw
    rwa [mul_div_cancel₀ _ hw.ne'] at this

theorem edgeDepth_pos [Archimedean K] {tol w : K} (ht : 0 < tol) (hw : tol ≤ w) : 0 < edgeDepth tol w := by
  classical
  unfold edgeDepth
  rw [dif_pos (edgeDepth_exists ht), Nat.find_pos]
  simpa using hw

theorem edgeDepth_le [Archimedean K] {tol w : K} (ht : 0 < tol) (d : ℕ) (h : w * (2 / 3) ^ d < tol) :
    edgeDepth tol w ≤ d := by
  classical
  unfold edgeDepth
  rw [dif_pos ⟨d, h⟩]
  exact Nat.find_min' _ h

theorem edgeDepth_spec [Archimedean K] {tol w : K} (ht : 0 < tol) : w * (2 / 3) ^ edgeDepth tol w < tol := by
  classical
  unfold edgeDepth
  rw [dif_pos (edgeDepth_exists ht)]
  exact Nat.find_spec (edgeDepth_exists ht)

theorem edgeDepth_split [Archimedean K] {tol w w' : K} (ht : 0 < tol) (hw : tol ≤ w) (h : w' ≤ 2 / 3 * w) :
    edgeDepth tol w' + 1 ≤ edgeDepth tol w := by
  obtain ⟨d, hd⟩ := Nat.exists_eq_succ_of_ne_zero (edgeDepth_pos ht hw).ne'
  rw [hd]
  refine Nat.succ_le_succ (edgeDepth_le ht d ?_)
  have h1 := edgeDepth_spec (w := w) ht
  rw [hd, Nat.succ_eq_add_one, pow_succ] at h1
  have hp : (0 : K) < (2 / 3) ^ d := by positivity
  nlinarith [mul_le_mul_of_nonneg_right h hp.le]

/-- A bound of the number of passes a box can cause. -/
noncomputable def boxWork (tol : K) {m : ℕ} (Q : Fin m → Iv K) : ℕ :=
  2 ^ (∑ j, edgeDepth tol ((Q j).b - (Q j).a)) - 1

/-- The widths of the halves. -/
theorem pssSplit_widths {R : Rnd K} (hnr : ∀ x, R.nr x = x) {m : ℕ} (Q : Fin m → Iv K) (k : Fin m)
    (hQ : ∀ j, Ordinary (Q j)) :
    ((pssSplit R Q k).1 k).b - ((pssSplit R Q k).1 k).a ≤ 2 / 3 * ((Q k).b - (Q k).a) ∧
    ((pssSplit R Q k).2 k).b - ((pssSplit R Q k).2 k).a ≤ 2 / 3 * ((Q k).b - (Q k).a) ∧
    (∀ j, j ≠ k → (pssSplit R Q k).1 j = Q j ∧ (pssSplit R Q k).2 j = Q j) ∧
    (∀ t, t ∈ (pssSplit R Q k).1 k → t ∈ Q k) ∧ ∀ t, t ∈ (pssSplit R Q k).2 k → t ∈ Q k := by
  unfold pssSplit
  dsimp only
  set c := if (Q k).a ≠ 0 ∧ -2 < R.nr ((Q k).b / (Q k).a) ∧ R.nr ((Q k).b / (Q k).a) < R.nr (-1 / 2) then (0 : K)
    else (Q k).mid R with hc
  have hab := (hQ k).2
  have hends : ∀ l r : K, (mkIv l r).a = l ∧ (mkIv l r).b = r := by
    intro l r; unfold mkIv; split_ifs <;> exact ⟨rfl, rfl⟩
  have h : (Q k).a ≤ c ∧ c ≤ (Q k).b ∧ c - (Q k).a ≤ 2 / 3 * ((Q k).b - (Q k).a) ∧
      (Q k).b - c ≤ 2 / 3 * ((Q k).b - (Q k).a) := by
    rw [hc]
    split_ifs with h
    · simp only [hnr] at h
      obtain ⟨h1, h2, h3⟩ := h
      rcases lt_or_gt_of_ne h1 with ha | ha
      · rw [lt_div_iff_of_neg ha] at h2
        rw [div_lt_iff_of_neg ha] at h3
        refine ⟨ha.le, ?_, ?_, ?_⟩ <;> linarith
      · exfalso
        have := div_nonneg (ha.le.trans hab) ha.le
        linarith
    · unfold Iv.mid
      simp only [hnr]
      refine ⟨?_, ?_, ?_, ?_⟩ <;> linarith
  refine ⟨?_, ?_, fun j hj => ⟨Function.update_of_ne hj _ _, Function.update_of_ne hj _ _⟩, fun t ht => ?_,
    fun t ht => ?_⟩
  · rw [Function.update_self, (hends _ _).1, (hends _ _).2]; exact h.2.2.1
  · rw [Function.update_self, (hends _ _).1, (hends _ _).2]; exact h.2.2.2
  · rw [Function.update_self, mkIv_mem] at ht; exact ⟨ht.1, ht.2.trans h.2.1⟩
  · rw [Function.update_self, mkIv_mem] at ht; exact ⟨h.1.trans ht.1, ht.2⟩

/-- The work of the two halves is smaller than the work of the box. -/
theorem boxWork_split [Archimedean K] {R : Rnd K} (hnr : ∀ x, R.nr x = x) {m : ℕ} {tol : K} (ht : 0 < tol)
    (Q : Fin m → Iv K) (k : Fin m) (hQ : ∀ j, Ordinary (Q j)) (hw : tol ≤ (Q k).b - (Q k).a) :
    boxWork tol (pssSplit R Q k).1 + boxWork tol (pssSplit R Q k).2 + 1 ≤ boxWork tol Q := by
  obtain ⟨w1, w2, hj, -, -⟩ := pssSplit_widths hnr Q k hQ
  have key : ∀ Q' : Fin m → Iv K, (∀ j, j ≠ k → Q' j = Q j) →
      (Q' k).b - (Q' k).a ≤ 2 / 3 * ((Q k).b - (Q k).a) →
      (∑ j, edgeDepth tol ((Q' j).b - (Q' j).a)) + 1 ≤ ∑ j, edgeDepth tol ((Q j).b - (Q j).a) := by
    intro Q' hne hk
    rw [← Finset.add_sum_erase _ _ (Finset.mem_univ k), ← Finset.add_sum_erase (a := k) (s := Finset.univ)
      (f := fun j => edgeDepth tol ((Q j).b - (Q j).a)) (Finset.mem_univ k)]
    have e : ∑ j ∈ Finset.univ.erase k, edgeDepth tol ((Q' j).b - (Q' j).a) =
        ∑ j ∈ Finset.univ.erase k, edgeDepth tol ((Q j).b - (Q j).a) :=
      Finset.sum_congr rfl fun j hj' => by rw [hne j (Finset.ne_of_mem_erase hj')]
    have := edgeDepth_split ht hw hk
    rw [e]
    omega
  have k1 := key _ (fun j h => (hj j h).1) w1
  have k2 := key _ (fun j h => (hj j h).2) w2
  unfold boxWork
  set D := ∑ j, edgeDepth tol ((Q j).b - (Q j).a)
  set D1 := ∑ j, edgeDepth tol (((pssSplit R Q k).1 j).b - ((pssSplit R Q k).1 j).a)
  set D2 := ∑ j, edgeDepth tol (((pssSplit R Q k).2 j).b - ((pssSplit R Q k).2 j).a)
  have p1 : 2 ^ (D1 + 1) ≤ 2 ^ D := Nat.pow_le_pow_right (by norm_num) k1
  have p2 : 2 ^ (D2 + 1) ≤ 2 ^ D := Nat.pow_le_pow_right (by norm_num) k2
  have q1 : 0 < 2 ^ D1 := by positivity
  have q2 : 0 < 2 ^ D2 := by positivity
  rw [pow_succ] at p1 p2
  omega

/-- The work left in a list: only the boxes with zeros are bisected again. -/
noncomputable def listWork (tol : K) {m : ℕ} (L : List (PssEl K m)) : ℕ :=
  (L.map fun e => if e.ar then boxWork tol e.Q else 0).sum

theorem listWork_insert (tol : K) {m : ℕ} (e : PssEl K m) (L : List (PssEl K m)) :
    listWork tol (pssInsert e L) = (if e.ar then boxWork tol e.Q else 0) + listWork tol L := by
  induction L with
  | nil => simp [pssInsert, listWork]
  | cons h t ih =>
      unfold pssInsert
      by_cases hq : h.q < e.q
      · rw [if_pos hq]
        unfold listWork at ih ⊢
        rw [List.map_cons, List.sum_cons, ih, List.map_cons, List.sum_cons]
        omega
      · rw [if_neg hq]
        rfl

theorem listWork_filter (tol : K) {m : ℕ} (p : PssEl K m → Bool) (L : List (PssEl K m)) :
    listWork tol (L.filter p) ≤ listWork tol L := by
  unfold listWork
  exact ((List.filter_sublist (l := L) (p := p)).map _).sum_le_sum fun _ _ => Nat.zero_le _

theorem listWork_erase (tol : K) {m : ℕ} (L : List (PssEl K m)) (i : ℕ) (e : PssEl K m) (h : L[i]? = some e) :
    listWork tol L = (if e.ar then boxWork tol e.Q else 0) + listWork tol (L.eraseIdx i) := by
  induction L generalizing i with
  | nil => cases h
  | cons a t ih =>
      cases i with
      | zero =>
          injection h with h
          subst h
          rfl
      | succ i =>
          have := ih i h
          unfold listWork at this ⊢
          rw [List.eraseIdx_cons_succ, List.map_cons, List.sum_cons, List.map_cons, List.sum_cons, this]
          omega

/-! ## The loop -/

/-- What is known of an element of the working list: an ordinary box inside the start box; if it is marked as final,
its bound is attained, otherwise it contains a zero. -/
structure PssGood {n m : ℕ} (P : PssArg K n m) (e : PssEl K m) : Prop where
  ord : ∀ j, Ordinary (e.Q j)
  sub : ∀ j t, t ∈ e.Q j → t ∈ P.V (P.nu.succAbove j)
  att : e.ar = false → BoxAttained P.A P.b P.nu e.Q e.q
  zero : e.ar = true → ∃ j, (0 : K) ∈ e.Q j

/-- One half adds a good element, and not more work than the half has. -/
theorem pssHalf_good {n m : ℕ} (P : PssArg K n m) (hP : P.OK) (ha : (P.V P.nu).a ≠ 0) (hb0 : (P.V P.nu).b ≠ 0)
    (omega : K) (ho : omega ≤ 10 ^ 15) (L L' : List (PssEl K m)) (Q : Fin m → Iv K) (eta : Option K)
    (hL : ∀ e ∈ L, PssGood P e) (hQo : ∀ j, Ordinary (Q j)) (hQV : ∀ j t, t ∈ Q j → t ∈ P.V (P.nu.succAbove j))
    (h : pssHalf P omega L Q = .ok (L', eta)) :
    (∀ e ∈ L', PssGood P e) ∧ listWork P.tol L' ≤ listWork P.tol L + boxWork P.tol Q := by
  have ins : ∀ (q : K) (ar : Bool), (ar = false → BoxAttained P.A P.b P.nu Q q) → (ar = true → ∃ j, (0 : K) ∈ Q j) →
      (∀ e ∈ pssInsert ⟨Q, q, ar⟩ L, PssGood P e) ∧
        listWork P.tol (pssInsert ⟨Q, q, ar⟩ L) ≤ listWork P.tol L + boxWork P.tol Q := by
    intro q ar h1 h2
    constructor
    · intro e he
      rcases (mem_pssInsert _ _ _).1 he with rfl | he
      · exact ⟨hQo, hQV, h1, h2⟩
      · exact hL e he
    · rw [listWork_insert]
      dsimp only
      split_ifs <;> omega
  have keep : (∀ e ∈ L, PssGood P e) ∧ listWork P.tol L ≤ listWork P.tol L + boxWork P.tol Q :=
    ⟨hL, Nat.le_add_right _ _⟩
  unfold pssHalf at h
  split_ifs at h with hz
  · have hz' : ∃ j, (0 : K) ∈ Q j := by
      obtain ⟨j, -, hj⟩ := List.any_eq_true.1 hz
      exact ⟨j, containsNum_iff.1 hj⟩
    split at h
    · cases h
    · injection h with h
      obtain ⟨rfl, rfl⟩ := Prod.mk.inj h
      exact keep
    · split_ifs at h with hq
      · split at h
        · cases h
        · injection h with h
          obtain ⟨rfl, rfl⟩ := Prod.mk.inj h
          exact ins _ true (by intro hc; cases hc) fun _ => hz'
      · injection h with h
        obtain ⟨rfl, rfl⟩ := Prod.mk.inj h
        exact keep
  · have h0 : ∀ j, ¬ (0 : K) ∈ Q j := by
      intro j hj
      exact hz (List.any_eq_true.2 ⟨j, List.mem_finRange j, containsNum_iff.2 hj⟩)
    dsimp only at h
    split_ifs at h with hq
    · injection h with h
      obtain ⟨rfl, rfl⟩ := Prod.mk.inj h
      refine ins _ false (fun _ => ?_) (by intro hc; cases hc)
      rcases C106_exact_box hP.nr P.lp hP.lpOK hP.lpComplete P.A P.b hP.A hP.b P.nu _ hP.big ha hb0 Q hQo h0 with
        h1 | ⟨h1, -⟩
      · exact h1
      · rw [h1] at hq
        exact absurd (hq.trans_le ho) (lt_irrefl _)
    · injection h with h
      obtain ⟨rfl, rfl⟩ := Prod.mk.inj h
      exact keep

/-- `omega` after a pass is the least of its old value and the two new estimates, and no element above it is kept. -/
theorem C52_prune {m : ℕ} (omega : K) (L : List (PssEl K m)) (eta1 eta2 : Option K) (hle : ∀ e ∈ L, e.q ≤ omega) :
    let r := pssPrune omega L (etaMin eta1 eta2)
    r.1 ≤ omega ∧ (∀ e, eta1 = some e → r.1 ≤ e) ∧ (∀ e, eta2 = some e → r.1 ≤ e) ∧
      (r.1 = omega ∨ eta1 = some r.1 ∨ eta2 = some r.1) ∧ ∀ e, e ∈ r.2 ↔ e ∈ L ∧ e.q ≤ r.1 := by
  have key : ∀ c : K, let r := pssPrune omega L (some c)
      r.1 = min c omega ∧ ∀ e, e ∈ r.2 ↔ e ∈ L ∧ e.q ≤ r.1 := by
    intro c
    simp only [pssPrune]
    split_ifs with h
    · exact ⟨(min_eq_left h.le).symm, fun e => by simp [List.mem_filter]⟩
    · exact ⟨(min_eq_right (not_lt.1 h)).symm, fun e => ⟨fun he => ⟨he, hle e he⟩, fun he => he.1⟩⟩
  have fin : ∀ c : K, let r := pssPrune omega L (some c)
      r.1 ≤ omega ∧ r.1 ≤ c ∧ (r.1 = omega ∨ r.1 = c) ∧ ∀ e, e ∈ r.2 ↔ e ∈ L ∧ e.q ≤ r.1 := by
    intro c
    obtain ⟨h1, h2⟩ := key c
    refine ⟨h1.trans_le (min_le_right _ _), h1.trans_le (min_le_left _ _), ?_, h2⟩
    rw [h1]
    exact (min_choice c omega).symm
  cases eta1 with
  | none =>
      cases eta2 with
      | none =>
          refine ⟨le_rfl, fun e h => (Option.some_ne_none e h.symm).elim, fun e h => (Option.some_ne_none e h.symm).elim,
            Or.inl rfl, fun e => ⟨fun he => ⟨he, hle e he⟩, fun he => he.1⟩⟩
      | some c =>
          obtain ⟨h1, h2, h3, h4⟩ := fin c
          refine ⟨h1, fun e h => (Option.some_ne_none e h.symm).elim, fun e h => ?_, ?_, h4⟩
          · cases h; exact h2
          · rcases h3 with h3 | h3
            · exact Or.inl h3
            · exact Or.inr (Or.inr (congrArg some h3.symm))
  | some d =>
      cases eta2 with
      | none =>
          obtain ⟨h1, h2, h3, h4⟩ := fin d
          refine ⟨h1, fun e h => ?_, fun e h => (Option.some_ne_none e h.symm).elim, ?_, h4⟩
          · cases h; exact h2
          · rcases h3 with h3 | h3
            · exact Or.inl h3
            · exact Or.inr (Or.inl (congrArg some h3.symm))
      | some c =>
          by_cases hdc : d ≤ c
          · have e1 : etaMin (some d) (some c) = some d := by simp only [etaMin]; rw [if_pos hdc]
            rw [e1]
            obtain ⟨h1, h2, h3, h4⟩ := fin d
            refine ⟨h1, fun e h => ?_, fun e h => ?_, ?_, h4⟩
            · cases h; exact h2
            · cases h; exact h2.trans hdc
            · rcases h3 with h3 | h3
              · exact Or.inl h3
              · exact Or.inr (Or.inl (congrArg some h3.symm))
          · have e1 : etaMin (some d) (some c) = some c := by simp only [etaMin]; rw [if_neg hdc]
            rw [e1]
            obtain ⟨h1, h2, h3, h4⟩ := fin c
            refine ⟨h1, fun e h => ?_, fun e h => ?_, ?_, h4⟩
            · cases h; exact h2.trans (not_le.1 hdc).le
            · cases h; exact h2
            · rcases h3 with h3 | h3
              · exact Or.inl h3
              · exact Or.inr (Or.inr (congrArg some h3.symm))

/-- A pass: the work decreases. -/
theorem pssPass_good [Archimedean K] {n m : ℕ} (P : PssArg K n m) (hP : P.OK) (ht : 0 < P.tol)
    (ha : (P.V P.nu).a ≠ 0) (hb0 : (P.V P.nu).b ≠ 0) (omega : K) (ho : omega ≤ 10 ^ 15) (L0 L1 L2 : List (PssEl K m))
    (Q : Fin m → Iv K) (k : Fin m) (eta1 eta2 : Option K) (hL : ∀ e ∈ L0, PssGood P e) (hQo : ∀ j, Ordinary (Q j))
    (hQV : ∀ j t, t ∈ Q j → t ∈ P.V (P.nu.succAbove j)) (hw : P.tol ≤ (Q k).wid P.R)
    (h1 : pssHalf P omega L0 (pssSplit P.R Q k).1 = .ok (L1, eta1))
    (h2 : pssHalf P omega L1 (pssSplit P.R Q k).2 = .ok (L2, eta2)) :
    (∀ e ∈ (pssPrune omega L2 (etaMin eta1 eta2)).2, PssGood P e) ∧
      (pssPrune omega L2 (etaMin eta1 eta2)).1 ≤ 10 ^ 15 ∧
      listWork P.tol (pssPrune omega L2 (etaMin eta1 eta2)).2 + 1 ≤ listWork P.tol L0 + boxWork P.tol Q := by
  obtain ⟨o1, o2⟩ := pssSplit_ordinary hP.nr Q k hQo
  obtain ⟨-, -, hne, s1, s2⟩ := pssSplit_widths hP.nr Q k hQo
  have v1 : ∀ j t, t ∈ (pssSplit P.R Q k).1 j → t ∈ P.V (P.nu.succAbove j) := by
    intro j t hj
    by_cases hjk : j = k
    · subst hjk; exact hQV _ _ (s1 t hj)
    · rw [(hne j hjk).1] at hj; exact hQV _ _ hj
  have v2 : ∀ j t, t ∈ (pssSplit P.R Q k).2 j → t ∈ P.V (P.nu.succAbove j) := by
    intro j t hj
    by_cases hjk : j = k
    · subst hjk; exact hQV _ _ (s2 t hj)
    · rw [(hne j hjk).2] at hj; exact hQV _ _ hj
  obtain ⟨g1, w1⟩ := pssHalf_good P hP ha hb0 omega ho L0 L1 _ eta1 hL o1 v1 h1
  obtain ⟨g2, w2⟩ := pssHalf_good P hP ha hb0 omega ho L1 L2 _ eta2 g1 o2 v2 h2
  have hw' : P.tol ≤ (Q k).b - (Q k).a := by
    unfold Iv.wid at hw
    rwa [hP.nr] at hw
  have w := boxWork_split hP.nr ht Q k hQo hw'
  generalize etaMin eta1 eta2 = eta
  have hsub : (∀ e ∈ (pssPrune omega L2 eta).2, e ∈ L2) ∧ (pssPrune omega L2 eta).1 ≤ omega ∧
      listWork P.tol (pssPrune omega L2 eta).2 ≤ listWork P.tol L2 := by
    cases eta with
    | none => exact ⟨fun _ h => h, le_rfl, le_rfl⟩
    | some c =>
        simp only [pssPrune]
        split_ifs with hc
        · exact ⟨fun _ h => (List.mem_filter.1 h).1, hc.le, listWork_filter _ _ _⟩
        · exact ⟨fun _ h => h, le_rfl, le_rfl⟩
  exact ⟨fun e he => g2 e (hsub.1 e he), hsub.2.1.trans ho, by omega⟩

/-- How `algo` may end: the value is attained by a solution, or belongs to a box inside the start box which contains a
zero and is narrower than the tolerance. -/
def PssSharp {n m : ℕ} (P : PssArg K n m) (r : K) : Prop :=
  BoxAttained P.A P.b P.nu (fun j => P.V (P.nu.succAbove j)) r ∨
    ∃ Q : Fin m → Iv K, (∀ j t, t ∈ Q j → t ∈ P.V (P.nu.succAbove j)) ∧ (∃ j, (0 : K) ∈ Q j) ∧
      ∀ j, (Q j).b - (Q j).a < P.tol

theorem boxWork_zero [Archimedean K] {tol : K} (ht : 0 < tol) {m : ℕ} (Q : Fin m → Iv K) (h : boxWork tol Q = 0) (j : Fin m) :
    (Q j).b - (Q j).a < tol := by
  by_contra hc
  have h1 := edgeDepth_pos ht (not_lt.1 hc)
  have h2 : edgeDepth tol ((Q j).b - (Q j).a) ≤ ∑ j, edgeDepth tol ((Q j).b - (Q j).a) :=
    Finset.single_le_sum (f := fun j => edgeDepth tol ((Q j).b - (Q j).a)) (fun _ _ => Nat.zero_le _)
      (Finset.mem_univ j)
  unfold boxWork at h
  have h3 : 2 ^ 1 ≤ 2 ^ ∑ j, edgeDepth tol ((Q j).b - (Q j).a) :=
    Nat.pow_le_pow_right (by norm_num) (by omega)
  omega

/-- The head of a good list whose first unfinished box is narrow. -/
theorem pssHead_sharp {n m : ℕ} (P : PssArg K n m) (L : List (PssEl K m)) (hL : ∀ e ∈ L, PssGood P e) (r : K)
    (h : pssHead L = .ok r)
    (hn : ∀ e, L.head? = some e → e.ar = true → ∀ j, (e.Q j).b - (e.Q j).a < P.tol) : PssSharp P r := by
  cases L with
  | nil => cases h
  | cons e t =>
      injection h with h
      have g := hL e List.mem_cons_self
      cases har : e.ar with
      | false =>
          obtain ⟨x, h1, h2, h3⟩ := g.att har
          exact Or.inl ⟨x, h1, fun j => g.sub j _ (h2 j), h3.trans h⟩
      | true => exact Or.inr ⟨e.Q, g.sub, g.zero har, hn e rfl har⟩

theorem pssLoop_sharp [Archimedean K] {n m : ℕ} (P : PssArg K n m) (hP : P.OK) (ht : 0 < P.tol)
    (ha : (P.V P.nu).a ≠ 0) (hb0 : (P.V P.nu).b ≠ 0) (fuel : ℕ) :
    ∀ (omega : K) (L : List (PssEl K m)) (item : ℕ) (e : PssEl K m), omega ≤ 10 ^ 15 →
      L.findIdx? (fun l => l.ar) = some item → L[item]? = some e → (∀ e ∈ L, PssGood P e) → listWork P.tol L ≤ fuel →
      ∀ r, pssLoop P fuel omega L item e.Q = .ok r → PssSharp P r := by
  induction fuel with
  | zero =>
      intro omega L item e ho hi he hL hf r h
      refine pssHead_sharp P L hL r h fun f hf' har => ?_
      have hz : listWork P.tol L = 0 := by omega
      cases L with
      | nil => cases hf'
      | cons a t =>
          cases hf'
          unfold listWork at hz
          rw [List.map_cons, List.sum_cons, if_pos har] at hz
          exact boxWork_zero ht _ (by omega)
  | succ fuel ih =>
      intro omega L item e ho hi he hL hf r h
      have hge := hL e (List.mem_of_getElem? he)
      have har : e.ar = true := by
        obtain ⟨h1, h2⟩ := List.findIdx?_eq_some_iff_getElem.1 hi
        rw [List.getElem?_eq_getElem h1] at he
        injection he with he
        rw [← he]
        exact h2.1
      unfold pssLoop at h
      split at h
      · cases h
      · next k hk =>
        split_ifs at h with htol
        · dsimp only at h
          have hsub : ∀ f ∈ L.eraseIdx item, f ∈ L := fun f hf => (L.eraseIdx_sublist item).subset hf
          have hwk := listWork_erase P.tol L item e he
          rw [if_pos har] at hwk
          split at h
          · cases h
          · next L1 eta1 h1 =>
            split at h
            · cases h
            · next L2 eta2 h2 =>
              obtain ⟨g, o, w⟩ := pssPass_good P hP ht ha hb0 omega ho (L.eraseIdx item) L1 L2 e.Q k eta1 eta2
                (fun f hf => hL f (hsub f hf)) hge.ord hge.sub htol h1 h2
              split at h
              · next hi' =>
                refine pssHead_sharp P _ g r h fun f hf' har' => ?_
                rw [List.findIdx?_eq_none_iff] at hi'
                have := hi' f (List.mem_of_mem_head? hf')
                rw [har'] at this
                cases this
              · next item' hi' =>
                split at h
                · next hnone =>
                  obtain ⟨h3, -⟩ := List.findIdx?_eq_some_iff_getElem.1 hi'
                  rw [List.getElem?_eq_getElem h3] at hnone
                  cases hnone
                · next l hl => exact ih _ _ item' l o hi' hl g (by omega) r h
        · refine pssHead_sharp P L hL r h fun f hf' har' j => ?_
          have hfe : f = e := by
            cases L with
            | nil => cases hf'
            | cons a t =>
                cases hf'
                rw [List.findIdx?_cons, if_pos har'] at hi
                cases hi
                cases he
                rfl
          rw [hfe]
          have hmax := (argmaxOn_spec (fun j => (e.Q j).wid P.R) (List.finRange m) k hk).2 j (List.mem_finRange j)
          have := not_le.1 htol
          unfold Iv.wid at this hmax
          rw [hP.nr] at this
          simp only [hP.nr] at hmax
          exact lt_of_le_of_lt hmax this

/-- The first pass of `algo`. -/
theorem pssAlgo_first [Archimedean K] {n m : ℕ} (P : PssArg K n m) (hP : P.OK) (ht : 0 < P.tol)
    (ha : (P.V P.nu).a ≠ 0) (hb0 : (P.V P.nu).b ≠ 0) (hw : ∃ j, j ≠ P.nu ∧ P.tol ≤ (P.V j).b - (P.V j).a)
    (maxiter : ℤ) (h0 : 0 ≤ maxiter) (r : K) (h : pssAlgo P maxiter = .ok r) :
    ∃ omega L, omega ≤ 10 ^ 15 ∧ (∀ e ∈ L, PssGood P e) ∧
      listWork P.tol L + 1 ≤ boxWork P.tol (fun j => P.V (P.nu.succAbove j)) ∧
      ((∀ e ∈ L, e.ar = false) ∧ pssHead L = .ok r ∨ ∃ item e, L.findIdx? (fun l => l.ar) = some item ∧ L[item]? = some e ∧
        pssLoop P maxiter.toNat omega L item e.Q = .ok r) := by
  unfold pssAlgo at h
  split_ifs at h with hm
  dsimp only at h
  obtain ⟨f, hf⟩ : ∃ f, (maxiter + 1).toNat = f + 1 := ⟨maxiter.toNat, by omega⟩
  have hff : f = maxiter.toNat := by omega
  rw [hf] at h
  unfold pssLoop at h
  split at h
  · cases h
  · next k hk =>
    have htol : P.tol ≤ (P.V (P.nu.succAbove k)).wid P.R := by
      obtain ⟨j, hj, hj2⟩ := hw
      obtain ⟨i, rfl⟩ := Fin.exists_succAbove_eq hj
      have := (argmaxOn_spec (fun j => (P.V (P.nu.succAbove j)).wid P.R) (List.finRange m) k hk).2 i (List.mem_finRange i)
      refine le_trans ?_ this
      unfold Iv.wid
      rwa [hP.nr]
    rw [if_pos htol] at h
    dsimp only [List.eraseIdx] at h
    have nogood : ∀ e ∈ ([] : List (PssEl K m)), PssGood P e := by intro e he; cases he
    split at h
    · cases h
    · next L1 eta1 h1 =>
      split at h
      · cases h
      · next L2 eta2 h2 =>
        obtain ⟨g, o, w⟩ := pssPass_good P hP ht ha hb0 (P.V P.nu).b hP.big.2 [] L1 L2 _ k eta1 eta2 nogood
          (fun j => hP.V _) (fun j t h => h) htol h1 h2
        have w0 : listWork P.tol ([] : List (PssEl K m)) = 0 := rfl
        refine ⟨_, _, o, g, by omega, ?_⟩
        split at h
        · next hi =>
          rw [List.findIdx?_eq_none_iff] at hi
          exact Or.inl ⟨fun e he => by simpa using hi e he, h⟩
        · next item' hi =>
          split at h
          · next hnone =>
            obtain ⟨h3, -⟩ := List.findIdx?_eq_some_iff_getElem.1 hi
            rw [List.getElem?_eq_getElem h3] at hnone
            cases hnone
          · next l hl => exact Or.inr ⟨item', l, hi, hl, hff ▸ h⟩

/-- C106 as stated: with enough passes every value found is attained by a solution or belongs to a box narrower than
the tolerance that contains a zero. -/
def C106_statement (K : Type*) [Field K] [LinearOrder K] [IsStrictOrderedRing K] : Prop :=
  ∀ (n m : ℕ) (P : PssArg K n m), P.OK → P.R = Rnd.exact → StartOK P.V P.A P.b → 0 < P.tol →
    (∃ j, j ≠ P.nu ∧ P.tol ≤ (P.V j).b - (P.V j).a) →
    ∃ N : ℤ, ∀ maxiter, N ≤ maxiter → ∀ r, pssAlgo P maxiter = .ok r → PssSharp P r

/-- C106 (partial): it holds when the ends of the start bound of the component are not zero.  Missing for the full
statement: start bounds with an end zero (`C106_zero_start_false`). -/
theorem C106_algo_partial [Archimedean K] {n m : ℕ} (P : PssArg K n m) (hP : P.OK) (ht : 0 < P.tol)
    (ha : (P.V P.nu).a ≠ 0) (hb0 : (P.V P.nu).b ≠ 0) (hw : ∃ j, j ≠ P.nu ∧ P.tol ≤ (P.V j).b - (P.V j).a) :
    ∃ N : ℤ, ∀ maxiter, N ≤ maxiter → ∀ r, pssAlgo P maxiter = .ok r → PssSharp P r := by
  refine ⟨boxWork P.tol (fun j => P.V (P.nu.succAbove j)), fun maxiter hN r h => ?_⟩
  obtain ⟨omega, L, ho, g, w, h1⟩ := pssAlgo_first P hP ht ha hb0 hw maxiter (le_trans (Int.natCast_nonneg _) hN) r h
  rcases h1 with ⟨h1, h2⟩ | ⟨item, e, h1, h2, h3⟩
  · refine pssHead_sharp P L g r h2 fun e he har => ?_
    rw [h1 e (List.mem_of_mem_head? he)] at har
    cases har
  · exact pssLoop_sharp P hP ht ha hb0 _ omega L item e ho h1 h2 g (by omega) r h3

/-- C106, start boxes without zeros: one pass suffices and the value is attained. -/
theorem C106_one_pass [Archimedean K] {n m : ℕ} (P : PssArg K n m) (hP : P.OK) (ht : 0 < P.tol)
    (h0 : ∀ j, ¬ (0 : K) ∈ P.V j) (hw : ∃ j, j ≠ P.nu ∧ P.tol ≤ (P.V j).b - (P.V j).a) (maxiter : ℤ)
    (hmax : 0 ≤ maxiter) (r : K) (h : pssAlgo P maxiter = .ok r) :
    BoxAttained P.A P.b P.nu (fun j => P.V (P.nu.succAbove j)) r := by
  have ha : (P.V P.nu).a ≠ 0 := fun hc => h0 _ ⟨hc.le, hc.symm.le.trans (hP.V _).2⟩
  have hb0 : (P.V P.nu).b ≠ 0 := fun hc => h0 _ ⟨(hP.V _).2.trans hc.le, hc.symm.le⟩
  obtain ⟨omega, L, ho, g, w, h1⟩ := pssAlgo_first P hP ht ha hb0 hw maxiter hmax r h
  have noar : ∀ e ∈ L, e.ar = false := by
    intro e he
    cases har : e.ar with
    | false => rfl
    | true =>
        obtain ⟨j, hj⟩ := (g e he).zero har
        exact absurd ((g e he).sub j _ hj) (h0 _)
  rcases h1 with ⟨-, h2⟩ | ⟨item, e, h1, h2, -⟩
  · cases L with
    | nil => cases h2
    | cons e t =>
        injection h2 with h2
        obtain ⟨x, h3, h4, h5⟩ := (g e List.mem_cons_self).att (noar e List.mem_cons_self)
        exact ⟨x, h3, fun j => (g e List.mem_cons_self).sub j _ (h4 j), h5.trans h2⟩
  · obtain ⟨h3, h4⟩ := List.findIdx?_eq_some_iff_getElem.1 h1
    have := noar _ (List.getElem_mem h3)
    rw [h4.1] at this
    cases this

theorem pssAll_attained [Archimedean K] {n m : ℕ} (P : PssArg K n m) (hP : ∀ nu, ({ P with nu := nu } : PssArg K n m).OK)
    (ht : 0 < P.tol) (h0 : ∀ j, ¬ (0 : K) ∈ P.V j) (hw : ∀ nu, ∃ j, j ≠ nu ∧ P.tol ≤ (P.V j).b - (P.V j).a)
    (maxiter : ℤ) (hmax : 0 ≤ maxiter) :
    ∀ (nus : List (Fin (m + 1))) (rs : List K), pssAll P maxiter nus = .ok rs →
      List.Forall₂ (fun nu r => ∃ x, United P.A P.b x ∧ x nu = r) nus rs := by
  intro nus
  induction nus with
  | nil =>
      intro rs h
      cases h
      exact List.Forall₂.nil
  | cons nu nus ih =>
      intro rs h
      unfold pssAll at h
      split at h
      · cases h
      · next q hq =>
        cases h1 : pssAll P maxiter nus with
        | error e => rw [h1] at h; cases h
        | ok t =>
            rw [h1] at h
            cases h
            obtain ⟨x, h2, -, h3⟩ := C106_one_pass { P with nu := nu } (hP nu) ht h0 (hw nu) maxiter hmax q hq
            exact List.Forall₂.cons ⟨x, h2, h3⟩ (ih t h1)

/-- C106 of `PSS` itself: if the start boxes of both systems contain no zeros (the solution set lies inside one
orthant and the start estimate shows it), then every interval returned is the hull of the values of its component:
both ends are attained by solutions, and all solutions lie between them. -/
theorem C106_orthant_hull [Archimedean K] {n m : ℕ} (lp : LpSolver K (PssRow n m) (Fin (m + 1))) (hlp : LpOK lp)
    (hc : LpComplete lp) (V1 V2 : Fin (m + 1) → Iv K) (start : (Fin n → Iv K) → Fin (m + 1) → Iv K) (tol : K)
    (ht : 0 < tol) (maxiter : ℤ) (hmax : 0 ≤ maxiter) (A : Fin n → Fin (m + 1) → Iv K) (b : Fin n → Iv K)
    (hA : ∀ i j, Ordinary (A i j)) (hb : ∀ i, Ordinary (b i))
    (e1 : start (fun i => (b i).rmul Rnd.exact 1) = V1)
    (e2 : start (fun i => ((b i).rmul Rnd.exact 1).rmul Rnd.exact (-1)) = V2)
    (s1 : StartOK V1 A b) (s2 : StartOK V2 A fun i => (b i).neg)
    (z1 : ∀ j, ¬ (0 : K) ∈ V1 j) (z2 : ∀ j, ¬ (0 : K) ∈ V2 j)
    (w1 : ∀ nu, ∃ j, j ≠ nu ∧ tol ≤ (V1 j).b - (V1 j).a) (w2 : ∀ nu, ∃ j, j ≠ nu ∧ tol ≤ (V2 j).b - (V2 j).a)
    (nu : Option (Fin (m + 1))) (X : List (Iv K)) (h : pss Rnd.exact lp start tol maxiter A b nu = .ok X) :
    List.Forall₂ (fun k I => (∃ x, United A b x ∧ x k = I.a) ∧ (∃ x, United A b x ∧ x k = I.b) ∧
      ∀ x, United A b x → x k ∈ I) (nu.elim (List.finRange (m + 1)) fun k => [k]) X := by
  have f1 : (fun i => (b i).rmul Rnd.exact 1) = b := by
    funext i
    have := hb i
    obtain ⟨hcl, hle⟩ := this
    rcases hbi : b i with ⟨cl, l, u⟩
    rw [hbi] at hcl hle
    dsimp only at hcl hle
    subst hcl
    simp [Iv.rmul, Rnd.exact, hle]
  have f2 : (fun i => ((b i).rmul Rnd.exact 1).rmul Rnd.exact (-1)) = fun i => (b i).neg := by
    funext i
    have f1i : (b i).rmul Rnd.exact 1 = b i := congrFun f1 i
    rw [f1i]
    obtain ⟨hcl, hle⟩ := hb i
    rcases hbi : b i with ⟨cl, l, u⟩
    rw [hbi] at hcl hle
    dsimp only at hcl hle
    subst hcl
    simp [Iv.rmul, Rnd.exact, Iv.neg, hle]
  have hs1 := s1
  have hs2 := s2
  rw [← e1] at hs1
  rw [← e2] at hs2
  rw [f1] at hs1 e1
  rw [f2] at hs2 e2
  have hin := fun x hx => C52_pss_partial (R := Rnd.exact) (fun _ => rfl) lp hlp hc start tol maxiter A b hA hb
    (by rw [f1]; exact hs1) (by rw [f2]; exact hs2) nu X h x hx
  have hnb : ∀ i, Ordinary ((b i).neg) := fun i =>
    ⟨(hb i).1, by have := (hb i).2; unfold Iv.neg; simpa using this⟩
  unfold pss at h
  dsimp only at h
  have f2' : (fun i => ((fun i => (b i).rmul Rnd.exact 1) i).rmul Rnd.exact (-1)) = fun i => (b i).neg := f2
  rw [f2', f1, e1, e2] at h
  split at h
  · cases h
  · next inf hinf =>
    split at h
    · cases h
    · next sup hsup =>
      injection h with h
      have hi := pssAll_attained ⟨Rnd.exact, lp, A, b, V1, 0, tol⟩
        (fun k => ⟨fun _ => rfl, hlp, hc, hA, hb, s1.1, s1.2.1 k⟩) ht z1 w1 maxiter hmax _ inf hinf
      have hs := pssAll_attained ⟨Rnd.exact, lp, A, fun i => (b i).neg, V2, 0, tol⟩
        (fun k => ⟨fun _ => rfl, hlp, hc, hA, hnb, s2.1, s2.2.1 k⟩) ht z2 w2 maxiter hmax _ sup hsup
      have hnus : pssNus nu = nu.elim (List.finRange (m + 1)) fun k => [k] := by
        cases nu <;> rfl
      rw [hnus] at hi hs
      clear hinf hsup hnus
      have hends : ∀ l r : K, (mkIv l r).a = l ∧ (mkIv l r).b = r := by
        intro l r; unfold mkIv; split_ifs <;> exact ⟨rfl, rfl⟩
      have neg : ∀ x, United A (fun i => (b i).neg) x → United A b fun j => -x j := fun x hx =>
        united_neg A _ b x hx fun i t hti => by
          rw [Iv.mem_def] at hti ⊢
          unfold Iv.neg at hti
          dsimp only at hti
          constructor <;> linarith [hti.1, hti.2]
      subst h
      revert sup hin
      generalize (nu.elim (List.finRange (m + 1)) fun k => [k]) = nus at hi ⊢
      induction hi with
      | nil =>
          intro sup hs _
          cases hs
          exact List.Forall₂.nil
      | cons h1 h2 ih =>
          intro sup hs hin
          cases hs with
          | cons h3 h4 =>
              refine List.Forall₂.cons ⟨?_, ?_, fun x hx => ?_⟩ (ih _ h4 fun x hx => ?_)
              · rw [(hends _ _).1]; exact h1
              · rw [(hends _ _).2]
                obtain ⟨x, hx, hx2⟩ := h3
                exact ⟨_, neg x hx, by rw [← hx2]⟩
              · have := hin x hx
                rw [List.zipWith_cons_cons] at this
                cases this with
                | cons h5 _ => exact h5
              · have := hin x hx
                rw [List.zipWith_cons_cons] at this
                cases this with
                | cons _ h6 => exact h6

/-! ## A start bound with an end zero -/

/-- The system `[[1, 2], 0; 0, 1] x = (4, [1/2, 2])`. -/
def pssZA : Fin 2 → Fin 2 → Iv ℚ :=
  ![![⟨.classical, 1, 2⟩, ⟨.classical, 0, 0⟩], ![⟨.classical, 0, 0⟩, ⟨.classical, 1, 1⟩]]
/-- Its right-hand side. -/
def pssZb : Fin 2 → Iv ℚ := ![⟨.classical, 4, 4⟩, ⟨.classical, 1 / 2, 2⟩]
/-- A box around its united solution set `[2, 4] × [1/2, 2]`, for `l ≤ 2`. -/
def pssZV (l : ℚ) : Fin 2 → Iv ℚ := ![⟨.classical, l, 10⟩, ⟨.classical, 1 / 2, 2⟩]
/-- The data of `algo` for its first component. -/
noncomputable def pssZP (l : ℚ) : PssArg ℚ 2 1 := ⟨Rnd.exact, pssLpEx 2 1, pssZA, pssZb, pssZV l, 0, 1 / 10 ^ 12⟩

theorem pssZP_ok (l : ℚ) (h1 : -10 ≤ l) (h2 : l ≤ 2) : (pssZP l).OK where
  nr := fun _ => rfl
  lpOK := lpChoice_ok _ _
  lpComplete := lpChoice_complete _ _
  A := by intro i j; fin_cases i <;> fin_cases j <;> norm_num [pssZP, pssZA, Ordinary]
  b := by intro i; fin_cases i <;> norm_num [pssZP, pssZb, Ordinary]
  V := by
    intro i
    fin_cases i <;> norm_num [pssZP, pssZV, Ordinary]
    linarith
  big := by
    norm_num [pssZP, pssZV]
    linarith

/-- What the solutions are. -/
theorem pssZ_solution (x : Fin 2 → ℚ) (hx : United pssZA pssZb x) : (2 ≤ x 0 ∧ x 0 ≤ 4) ∧ 1 / 2 ≤ x 1 ∧ x 1 ≤ 2 := by
  obtain ⟨A', hA', b', hb', he⟩ := hx
  have e0 := he 0
  have e1 := he 1
  simp only [apply, Fin.sum_univ_two] at e0 e1
  have a00 := hA' 0 0
  have a01 := hA' 0 1
  have a10 := hA' 1 0
  have a11 := hA' 1 1
  have b0 := hb' 0
  have b1 := hb' 1
  norm_num [pssZA, pssZb, Iv.mem_def] at a00 a01 a10 a11 b0 b1
  have f01 : A' 0 1 = 0 := le_antisymm a01.2 a01.1
  have f10 : A' 1 0 = 0 := le_antisymm a10.2 a10.1
  have f11 : A' 1 1 = 1 := le_antisymm a11.2 a11.1
  have g0 : b' 0 = 4 := le_antisymm b0.2 b0.1
  rw [f01, g0, zero_mul, add_zero] at e0
  rw [f10, f11, zero_mul, zero_add, one_mul] at e1
  have hpos : 0 < x 0 := by
    by_contra hc
    nlinarith [a00.1, mul_nonneg (show (0 : ℚ) ≤ A' 0 0 by linarith [a00.1]) (show 0 ≤ -x 0 by linarith)]
  refine ⟨⟨?_, ?_⟩, ?_, ?_⟩
  · nlinarith [a00.2]
  · nlinarith [a00.1]
  · rw [e1]; linarith [b1.1]
  · rw [e1]; exact b1.2

/-- With the start bound `[0, 10]` the "exact" bound of a box is 0. -/
theorem pssZ_exact (l u y : ℚ) (hl : 0 < l) (hly : l ≤ y) (hyu : y ≤ u) (hy : 1 / 2 ≤ y ∧ y ≤ 2) :
    exactOmega Rnd.exact (pssLpEx 2 1) pssZA pssZb 0 (pssZV 0 0) (fun _ => ⟨.classical, l, u⟩) = 0 := by
  have hs : npSign (pssZV 0 0).a = 0 := by norm_num [pssZV, npSign]
  have hc : (fun j : Fin 2 => if j = 0 then (0 : ℚ) else 0) = fun _ => 0 := by funext j; split_ifs <;> rfl
  set S : Fin 2 → ℚ := (0 : Fin 2).insertNth (α := fun _ => ℚ) 0 fun _ => npSign l with hS
  have hl1 : npSign l = 1 := if_pos hl
  have S0 : S 0 = 0 := by rw [hS]; rfl
  have S1 : S 1 = 1 := by
    rw [hS, ← hl1]
    rfl
  obtain ⟨z, hz⟩ := lpChoice_complete (PssRow 2 1) (Fin 2) (K := ℚ) (fun _ => 0) (pssLpA Rnd.exact pssZA S)
    (pssLpB pssZb 0 fun _ => ⟨.classical, l, u⟩) ![8, y] (by
      rintro (i | i | k | k | k)
      · fin_cases i <;> norm_num [pssLpA, pssLpB, Fin.sum_univ_two, pssZA, pssZb, S0, S1, Iv.mid, Iv.rad, Iv.wid, Rnd.exact]
        exact hy.2
      · fin_cases i <;> norm_num [pssLpA, pssLpB, Fin.sum_univ_two, pssZA, pssZb, S0, S1, Iv.mid, Iv.rad, Iv.wid, Rnd.exact]
        linarith [hy.1]
      · fin_cases k
        · norm_num [pssLpA, pssLpB, Fin.sum_univ_two, S0, S1]
        · norm_num [pssLpA, pssLpB, Fin.sum_univ_two, S0, S1]
          exact hly
      · fin_cases k
        · norm_num [pssLpA, pssLpB, Fin.sum_univ_two, S0, S1]
        · norm_num [pssLpA, pssLpB, Fin.sum_univ_two, S0, S1]
          exact hyu
      · fin_cases k
        · norm_num [pssLpA, pssLpB, Fin.sum_univ_two]
        · norm_num [pssLpA, pssLpB, Fin.sum_univ_two]
          linarith) (by intro z' _; simp)
  have hp : pssLp Rnd.exact (pssLpEx 2 1) pssZA pssZb 0 (fun _ => ⟨.classical, l, u⟩) (npSign (pssZV 0 0).a) = .ok 0 := by
    rw [hs]
    unfold pssLp
    dsimp only
    rw [hc, ← hS]
    unfold pssLpEx
    rw [hz]
    simp [Except.map]
  unfold exactOmega
  rw [hp]

/-- With the start bound `[l, 10]`, `l ≠ 0`, it is the optimal 2. -/
theorem pssZ_exact_two (l0 : ℚ) (h1 : -10 ≤ l0) (h2 : l0 ≤ 2) (hl0 : l0 ≠ 0) (l u : ℚ) (hl : 0 < l) (hlu : l ≤ u)
    (hy : 1 / 2 ≤ l ∧ l ≤ 2) :
    exactOmega Rnd.exact (pssLpEx 2 1) pssZA pssZb 0 (pssZV l0 0) (fun _ => ⟨.classical, l, u⟩) = 2 := by
  have hP := pssZP_ok l0 h1 h2
  have hsol : United pssZA pssZb ![2, l] := by
    refine ⟨![![2, 0], ![0, 1]], ?_, ![4, l], ?_, ?_⟩
    · intro i j; fin_cases i <;> fin_cases j <;> norm_num [pssZA, Iv.mem_def]
    · intro i; fin_cases i <;> norm_num [pssZb, Iv.mem_def]
      constructor <;> linarith [hy.1, hy.2]
    · intro i; fin_cases i <;> norm_num [apply, Fin.sum_univ_two]
  have h0 : ∀ _ : Fin 1, ¬ (0 : ℚ) ∈ (⟨.classical, l, u⟩ : Iv ℚ) := by
    intro _ hc
    rw [Iv.mem_def] at hc
    exact absurd hc.1 (not_le.2 hl)
  have hin : ∀ j : Fin 1, (![2, l] : Fin 2 → ℚ) ((0 : Fin 2).succAbove j) ∈ (⟨.classical, l, u⟩ : Iv ℚ) := by
    intro j; fin_cases j; exact ⟨le_rfl, hlu⟩
  have hmem : (![2, l] : Fin 2 → ℚ) 0 ∈ pssZV l0 0 := by
    norm_num [pssZV, Iv.mem_def]
    exact h2
  have hle := exactOmega_le hP.nr (pssLpEx 2 1) hP.lpOK hP.lpComplete pssZA pssZb 0 (pssZV l0 0) hP.big
    (fun _ => ⟨.classical, l, u⟩) ![2, l] hsol hmem hin h0
  rcases C106_exact_box hP.nr (pssLpEx 2 1) hP.lpOK hP.lpComplete pssZA pssZb hP.A hP.b 0 (pssZV l0 0) hP.big hl0
    (by norm_num [pssZV]) (fun _ => ⟨.classical, l, u⟩) (fun _ => ⟨rfl, hlu⟩) h0 with ⟨x, hx, -, hx2⟩ | ⟨-, h⟩
  · have := (pssZ_solution x hx).1.1
    refine le_antisymm hle ?_
    exact this.trans (le_of_eq hx2)
  · exact absurd ⟨_, hsol, hin, rfl⟩ (h _ hmem)

/-- `algo` returns the value of `ExactOmega`, for every number of passes. -/
theorem pssZ_algo (l0 v : ℚ) (hv : v < 10) (hex : ∀ l u : ℚ, 0 < l → l ≤ u → 1 / 2 ≤ l ∧ l ≤ 2 →
      exactOmega Rnd.exact (pssLpEx 2 1) pssZA pssZb 0 (pssZV l0 0) (fun _ => ⟨.classical, l, u⟩) = v)
    (maxiter : ℤ) (h0 : 0 ≤ maxiter) : pssAlgo (pssZP l0) maxiter = .ok v := by
  obtain ⟨f, hf⟩ : ∃ f, (maxiter + 1).toNat = f + 1 := ⟨maxiter.toNat, by omega⟩
  have hQ : (fun j : Fin 1 => (pssZP l0).V ((pssZP l0).nu.succAbove j)) = fun _ => ⟨.classical, 1 / 2, 2⟩ := by
    funext j; fin_cases j; rfl
  have hk : argmaxOn (fun j : Fin 1 => ((fun _ : Fin 1 => (⟨.classical, 1 / 2, 2⟩ : Iv ℚ)) j).wid (pssZP l0).R) (List.finRange 1) =
      some 0 := rfl
  have hsp : pssSplit (pssZP l0).R (fun _ : Fin 1 => (⟨.classical, 1 / 2, 2⟩ : Iv ℚ)) 0 =
      (fun _ => ⟨.classical, 1 / 2, 5 / 4⟩, fun _ => ⟨.classical, 5 / 4, 2⟩) := by
    unfold pssSplit
    refine Prod.ext ?_ ?_ <;> funext j <;> fin_cases j <;>
      norm_num [pssZP, Rnd.exact, Iv.mid, mkIv]
  have half : ∀ (L : List (PssEl ℚ 1)) (l u : ℚ), 0 < l → l ≤ u → 1 / 2 ≤ l → l ≤ 2 →
      pssHalf (pssZP l0) 10 L (fun _ => ⟨.classical, l, u⟩) = .ok (pssInsert ⟨fun _ => ⟨.classical, l, u⟩, v, false⟩ L, some v) := by
    intro L l u hl hlu h1 h2
    unfold pssHalf
    have hz : ((List.finRange 1).any fun j : Fin 1 => ((fun _ : Fin 1 => (⟨.classical, l, u⟩ : Iv ℚ)) j).containsNum 0) =
        false := by
      rw [List.any_eq_false]
      intro j _
      simp only [containsNum_iff, Iv.mem_def]
      intro hc
      linarith [hc.1]
    rw [if_neg (by rw [hz]; exact Bool.false_ne_true)]
    have he : exactOmega (pssZP l0).R (pssZP l0).lp (pssZP l0).A (pssZP l0).b (pssZP l0).nu ((pssZP l0).V (pssZP l0).nu) (fun _ => ⟨.classical, l, u⟩) = v :=
      hex l u hl hlu ⟨h1, h2⟩
    dsimp only
    rw [he, if_pos hv]
  unfold pssAlgo
  rw [if_neg (by norm_num), hf]
  dsimp only
  rw [hQ]
  unfold pssLoop
  rw [hk]
  dsimp only
  rw [if_pos (by norm_num [pssZP, Iv.wid, Rnd.exact]), hsp]
  dsimp only [List.eraseIdx]
  have hom : ((pssZP l0).V (pssZP l0).nu).b = 10 := rfl
  rw [hom, half [] (1 / 2) (5 / 4) (by norm_num) (by norm_num) (by norm_num) (by norm_num)]
  dsimp only
  rw [half _ (5 / 4) 2 (by norm_num) (by norm_num) (by norm_num) (by norm_num)]
  simp [pssInsert, hv, etaMin, pssPrune, pssHead, List.findIdx?_cons]

/-- C106 is false: with the start bound `[0, 10]` of the first unknown `algo` returns 0 for
`[[1, 2], 0; 0, 1] x = (4, [1/2, 2])`, although that unknown lies in `[2, 4]` for all solutions: `np.sign` of the zero
end removes the unknown from the linear program. -/
theorem C106_zero_start_false : ¬ C106_statement ℚ ∧ ∀ maxiter, 0 ≤ maxiter → pssAlgo (pssZP 0) maxiter = .ok 0 := by
  have run := pssZ_algo 0 0 (by norm_num) fun l u hl hlu hy => pssZ_exact l u l hl le_rfl hlu hy
  have ok := pssZP_ok 0 (by norm_num) (by norm_num)
  refine ⟨fun h => ?_, run⟩
  obtain ⟨N, hN⟩ := h 2 1 (pssZP 0) ok rfl
    ⟨ok.V, by intro j; fin_cases j <;> norm_num [pssZP, pssZV], fun x hx j => by
      have := pssZ_solution x hx
      fin_cases j <;> norm_num [pssZP, pssZV, Iv.mem_def]
      · constructor <;> linarith [this.1.1, this.1.2]
      · constructor <;> linarith [this.2.1, this.2.2]⟩
    (by norm_num [pssZP]) ⟨1, by norm_num [pssZP], by norm_num [pssZP, pssZV]⟩
  rcases hN (max N 0) (le_max_left _ _) 0 (run _ (le_max_right _ _)) with ⟨x, hx, -, hx0⟩ | ⟨Q, hQ, ⟨j, hj⟩, -⟩
  · have := (pssZ_solution x hx).1.1
    have hx0' : x 0 = 0 := hx0
    linarith
  · have := hQ j 0 hj
    fin_cases j
    have h2 : (0 : ℚ) ∈ pssZV 0 1 := this
    norm_num [pssZV, Iv.mem_def] at h2

/-- The hypotheses of `C106_algo_partial` and `C106_one_pass` for the start bounds `[-1, 10]` and `[1, 10]`, and the
values: the wider start bound `[-1, 10]` gives the optimal 2, `[0, 10]` does not. -/
example : (pssZP (-1)).OK ∧ (pssZP 1).OK ∧ ((pssZP (-1)).V 0).a ≠ 0 ∧ (∀ j, ¬ (0 : ℚ) ∈ (pssZP 1).V j) ∧
    (∃ j, j ≠ (pssZP 1).nu ∧ (pssZP 1).tol ≤ ((pssZP 1).V j).b - ((pssZP 1).V j).a) ∧
    pssAlgo (pssZP (-1)) 0 = .ok 2 ∧ pssAlgo (pssZP 1) 0 = .ok 2 := by
  refine ⟨pssZP_ok _ (by norm_num) (by norm_num), pssZP_ok _ (by norm_num) (by norm_num), by norm_num [pssZP, pssZV], ?_,
    ⟨1, by norm_num [pssZP], by norm_num [pssZP, pssZV]⟩,
    pssZ_algo _ _ (by norm_num) (pssZ_exact_two _ (by norm_num) (by norm_num) (by norm_num)) 0 le_rfl,
    pssZ_algo _ _ (by norm_num) (pssZ_exact_two _ (by norm_num) (by norm_num) (by norm_num)) 0 le_rfl⟩
  intro j
  fin_cases j <;> norm_num [pssZP, pssZV, Iv.mem_def]

/-- The hypotheses of `C106_orthant_hull` for this system: start boxes of `A x = b` and `A x = -b` without zeros. -/
example : StartOK (pssZV 1) pssZA pssZb ∧ StartOK (fun j => (pssZV 1 j).neg) pssZA (fun i => (pssZb i).neg) ∧
    (∀ j, ¬ (0 : ℚ) ∈ pssZV 1 j) ∧ (∀ j, ¬ (0 : ℚ) ∈ (pssZV 1 j).neg) ∧
    ∀ nu : Fin 2, ∃ j, j ≠ nu ∧ (1 : ℚ) / 10 ^ 12 ≤ (pssZV 1 j).b - (pssZV 1 j).a := by
  have hin : ∀ x, United pssZA pssZb x → InVec x (pssZV 1) := by
    intro x hx j
    have := pssZ_solution x hx
    fin_cases j <;> norm_num [pssZV, Iv.mem_def]
    · constructor <;> linarith [this.1.1, this.1.2]
    · constructor <;> linarith [this.2.1, this.2.2]
  refine ⟨⟨?_, ?_, hin⟩, ⟨?_, ?_, ?_⟩, ?_, ?_, ?_⟩
  · intro j; fin_cases j <;> norm_num [pssZV, Ordinary]
  · intro j; fin_cases j <;> norm_num [pssZV]
  · intro j; fin_cases j <;> norm_num [pssZV, Ordinary, Iv.neg]
  · intro j; fin_cases j <;> norm_num [pssZV, Iv.neg]
  · intro x hx j
    have := hin _ (united_neg pssZA (fun i => (pssZb i).neg) pssZb x hx fun i t hti => by
      rw [Iv.mem_def] at hti ⊢
      unfold Iv.neg at hti
      dsimp only at hti
      constructor <;> linarith [hti.1, hti.2]) j
    rw [Iv.mem_def] at this ⊢
    unfold Iv.neg
    dsimp only
    constructor <;> linarith [this.1, this.2]
  · intro j; fin_cases j <;> norm_num [pssZV, Iv.mem_def]
  · intro j; fin_cases j <;> norm_num [pssZV, Iv.mem_def, Iv.neg]
  · intro nu
    fin_cases nu
    · exact ⟨1, by norm_num, by norm_num [pssZV]⟩
    · exact ⟨0, by norm_num, by norm_num [pssZV]⟩

end IntvalPy
