import Verif.ModelPPS
import Verif.PropsHBR
import Verif.PropsPSS
import Mathlib.Algebra.Order.Ring.Rat
import Mathlib.Tactic.Linarith
import Mathlib.Tactic.FieldSimp
import Mathlib.Tactic.Ring
import Mathlib.Tactic.FinCases
import Mathlib.Data.Fin.VecNotation

/-!
# PPS (C60, C79, C80)
-/

set_option autoImplicit false
set_option linter.unusedSectionVars false

namespace IntvalPy
open Spec

variable {K : Type*} [Field K] [LinearOrder K] [IsStrictOrderedRing K]

/-! ## What is searched: a system of the interval system whose solution has the least component -/

/-- The least component `nu` of all solutions, attained at the system `Q x = r` with the inverse `Y`. -/
structure Minimal {n : ℕ} (A : Fin n → Fin n → Iv K) (b : Fin n → Iv K) (nu : Fin n) (Q Y : Fin n → Fin n → K)
    (r x : Fin n → K) : Prop where
  hQ : InMat Q A
  hr : InVec r b
  sol : ∀ i, apply Q x i = r i
  inv : IsInverse Q Y
  min : ∀ x', United A b x' → x nu ≤ x' nu

/-- None of the partial derivatives of the component `nu` of the solution with respect to the entries of the system is zero:
they are `-Y nu i * x j` and `Y nu i`. -/
def Nondegenerate {n : ℕ} (nu : Fin n) (Y : Fin n → Fin n → K) (x : Fin n → K) : Prop :=
  (∀ i, Y nu i ≠ 0) ∧ ∀ j, x j ≠ 0

/-- A change of one entry of the matrix (Sherman and Morrison). -/
theorem move_entry {n : ℕ} (Q Y : Fin n → Fin n → K) (r x : Fin n → K) (hi : IsInverse Q Y) (hx : ∀ k, apply Q x k = r k)
    (i j : Fin n) (δ : K) (h : 1 + δ * Y j i ≠ 0) (k : Fin n) :
    apply (setEntry Q i j (Q i j + δ)) (fun l => x l - δ * x j / (1 + δ * Y j i) * Y l i) k = r k := by
  have e1 : ∀ y : Fin n → K, apply (setEntry Q i j (Q i j + δ)) y k = apply Q y k + if k = i then δ * y j else 0 := by
    intro y
    unfold apply setEntry
    by_cases hk : k = i
    · subst hk
      have : ∀ l, (if k = k ∧ l = j then Q k j + δ else Q k l) * y l = Q k l * y l + if l = j then δ * y j else 0 := by
        intro l
        by_cases hl : l = j
        · subst hl; simp; ring
        · simp [hl]
      rw [Finset.sum_congr rfl fun l _ => this l]
      simp only [Finset.sum_add_distrib, Finset.sum_ite_eq', Finset.mem_univ, if_true]
    · simp [hk]
  have e2 : apply Q (fun l => x l - δ * x j / (1 + δ * Y j i) * Y l i) k
      = r k - δ * x j / (1 + δ * Y j i) * if k = i then 1 else 0 := by
    rw [← hx k, ← hi k i]
    unfold apply
    rw [Finset.mul_sum, ← Finset.sum_sub_distrib]
    exact Finset.sum_congr rfl fun l _ => by ring
  rw [e1, e2]
  by_cases hk : k = i
  · simp only [hk, if_true]
    field_simp
    ring
  · simp [hk]

/-- A change of one component of the right-hand side. -/
theorem move_comp {n : ℕ} (Q Y : Fin n → Fin n → K) (r x : Fin n → K) (hi : IsInverse Q Y) (hx : ∀ k, apply Q x k = r k)
    (i : Fin n) (δ : K) (k : Fin n) : apply Q (fun l => x l + δ * Y l i) k = setComp r i (r i + δ) k := by
  have : apply Q (fun l => x l + δ * Y l i) k = r k + δ * if k = i then 1 else 0 := by
    rw [← hx k, ← hi k i]
    unfold apply
    rw [Finset.mul_sum, ← Finset.sum_add_distrib]
    exact Finset.sum_congr rfl fun l _ => by ring
  rw [this, setComp]
  by_cases hk : k = i
  · simp [hk]
  · simp [hk]

/-- A small step keeps the denominator positive. -/
theorem small_step (d y : K) (hd : 0 < d) : ∃ ε, 0 < ε ∧ ε ≤ d ∧ ∀ δ, |δ| = ε → 0 < 1 + δ * y := by
  refine ⟨min d (1 / (2 * (|y| + 1))), ?_, min_le_left _ _, ?_⟩
  · have : 0 < 2 * (|y| + 1) := by positivity
    exact lt_min hd (by positivity)
  · intro δ h
    have h1 : |δ| ≤ 1 / (2 * (|y| + 1)) := h ▸ min_le_right _ _
    have h2 : |δ * y| ≤ 1 / (2 * (|y| + 1)) * (|y| + 1) := by
      rw [abs_mul]
      exact mul_le_mul h1 (by linarith) (abs_nonneg _) (by positivity)
    have h3 : 1 / (2 * (|y| + 1)) * (|y| + 1) = 1 / 2 := by field_simp
    have := neg_abs_le (δ * y)
    linarith

theorem setEntry_mem {n : ℕ} {Q : Fin n → Fin n → K} {A : Fin n → Fin n → Iv K} (h : InMat Q A) (i j : Fin n) (v : K)
    (hv : v ∈ A i j) : InMat (setEntry Q i j v) A := by
  intro k l
  unfold setEntry
  split_ifs with hk
  · rw [hk.1, hk.2]; exact hv
  · exact h k l

theorem setComp_mem {n : ℕ} {r : Fin n → K} {b : Fin n → Iv K} (h : InVec r b) (i : Fin n) (v : K) (hv : v ∈ b i) :
    InVec (setComp r i v) b := by
  intro k
  unfold setComp
  split_ifs with hk
  · rw [hk]; exact hv
  · exact h k

section
variable {n : ℕ} {A : Fin n → Fin n → Iv K} {b : Fin n → Iv K} {nu : Fin n} {Q Y : Fin n → Fin n → K} {r x : Fin n → K}

/-- At the minimum, entries with a positive derivative are at their lower ends. -/
theorem Minimal.entry_lo (h : Minimal A b nu Q Y r x) (i j : Fin n) (hd : 0 < -(Y nu i * x j)) : Q i j = (A i j).a := by
  by_contra hne
  have hlt : (A i j).a < Q i j := lt_of_le_of_ne (Iv.mem_def.1 (h.hQ i j)).1 (Ne.symm hne)
  obtain ⟨ε, h0, h1, h2⟩ := small_step (Q i j - (A i j).a) (Y j i) (by linarith)
  have hp := h2 (-ε) (by rw [abs_neg, abs_of_pos h0])
  have hm := h.min _ ⟨_, setEntry_mem h.hQ i j (Q i j + -ε)
    (Iv.mem_def.2 ⟨by linarith, by linarith [(Iv.mem_def.1 (h.hQ i j)).2]⟩), r, h.hr,
    move_entry Q Y r x h.inv h.sol i j (-ε) hp.ne'⟩
  have : -ε * x j / (1 + -ε * Y j i) * Y nu i = ε * (-(Y nu i * x j)) / (1 + -ε * Y j i) := by
    field_simp
  have h3 : 0 < ε * (-(Y nu i * x j)) / (1 + -ε * Y j i) := div_pos (mul_pos h0 hd) hp
  linarith

/-- At the minimum, entries with a negative derivative are at their upper ends. -/
theorem Minimal.entry_hi (h : Minimal A b nu Q Y r x) (i j : Fin n) (hd : -(Y nu i * x j) < 0) : Q i j = (A i j).b := by
  by_contra hne
  have hlt : Q i j < (A i j).b := lt_of_le_of_ne (Iv.mem_def.1 (h.hQ i j)).2 hne
  obtain ⟨ε, h0, h1, h2⟩ := small_step ((A i j).b - Q i j) (Y j i) (by linarith)
  have hp := h2 ε (abs_of_pos h0)
  have hm := h.min _ ⟨_, setEntry_mem h.hQ i j (Q i j + ε)
    (Iv.mem_def.2 ⟨by linarith [(Iv.mem_def.1 (h.hQ i j)).1], by linarith⟩), r, h.hr,
    move_entry Q Y r x h.inv h.sol i j ε hp.ne'⟩
  have : ε * x j / (1 + ε * Y j i) * Y nu i = ε * (Y nu i * x j) / (1 + ε * Y j i) := by
    field_simp
  have h3 : 0 < ε * (Y nu i * x j) / (1 + ε * Y j i) := div_pos (mul_pos h0 (by linarith)) hp
  linarith

theorem Minimal.comp_lo (h : Minimal A b nu Q Y r x) (i : Fin n) (hd : 0 < Y nu i) : r i = (b i).a := by
  by_contra hne
  have hlt : (b i).a < r i := lt_of_le_of_ne (Iv.mem_def.1 (h.hr i)).1 (Ne.symm hne)
  have hm := h.min _ ⟨Q, h.hQ, _, setComp_mem h.hr i (r i + ((b i).a - r i))
    (Iv.mem_def.2 ⟨by linarith, by linarith [(Iv.mem_def.1 (h.hr i)).2]⟩), move_comp Q Y r x h.inv h.sol i _⟩
  nlinarith

theorem Minimal.comp_hi (h : Minimal A b nu Q Y r x) (i : Fin n) (hd : Y nu i < 0) : r i = (b i).b := by
  by_contra hne
  have hlt : r i < (b i).b := lt_of_le_of_ne (Iv.mem_def.1 (h.hr i)).2 hne
  have hm := h.min _ ⟨Q, h.hQ, _, setComp_mem h.hr i (r i + ((b i).b - r i))
    (Iv.mem_def.2 ⟨by linarith [(Iv.mem_def.1 (h.hr i)).1], by linarith⟩), move_comp Q Y r x h.inv h.sol i _⟩
  nlinarith

end

/-! ## Propagation of the tags -/

/-- Every tag that is not zero has the value of the sign pattern `y i * z j`, `y i`, `z j`. -/
structure TagsOK {n : ℕ} (y z : Fin n → ℤ) (g : PpsTags n) : Prop where
  W : ∀ i j, g.W i j ≠ 0 → g.W i j = y i * z j
  s : ∀ i, g.s i ≠ 0 → g.s i = y i
  t : ∀ j, g.t j ≠ 0 → g.t j = z j

/-- Entries of a sign pattern. -/
def IsSign {n : ℕ} (y : Fin n → ℤ) : Prop := ∀ i, y i = 1 ∨ y i = -1

section
variable {n : ℕ} {y z : Fin n → ℤ}

theorem setW_ok {p : PpsProp n} (h : TagsOK y z p.tags) (kj : Fin n × Fin n) : TagsOK y z (p.setW kj).tags := by
  refine ⟨fun i j => ?_, h.s, h.t⟩
  dsimp only [PpsProp.setW]
  split_ifs with hc
  · intro hne
    obtain ⟨rfl, rfl⟩ := hc
    rw [h.s _ (left_ne_zero_of_mul hne), h.t _ (right_ne_zero_of_mul hne)]
  · exact h.W i j

theorem sign_div (hz : IsSign z) (w : ℤ) (j : Fin n) : w * z j / z j = w := by
  rcases hz j with h | h <;> rw [h] <;> simp

theorem setS_ok (hz : IsSign z) {p : PpsProp n} (h : TagsOK y z p.tags) (ij : Fin n × Fin n) :
    TagsOK y z (p.setS ij).tags := by
  refine ⟨h.W, fun i => ?_, h.t⟩
  dsimp only [PpsProp.setS]
  split_ifs with hc
  · intro hne
    subst hc
    have hW : p.tags.W ij.1 ij.2 ≠ 0 := fun h0 => hne (by rw [h0, Int.zero_ediv])
    have ht : p.tags.t ij.2 ≠ 0 := fun h0 => hne (by rw [h0, Int.ediv_zero])
    rw [h.W _ _ hW, h.t _ ht, sign_div hz]
  · exact h.s i

theorem setT_ok (hy : IsSign y) {p : PpsProp n} (h : TagsOK y z p.tags) (ij : Fin n × Fin n) :
    TagsOK y z (p.setT ij).tags := by
  refine ⟨h.W, h.s, fun j => ?_⟩
  dsimp only [PpsProp.setT]
  split_ifs with hc
  · intro hne
    subst hc
    have hW : p.tags.W ij.1 ij.2 ≠ 0 := fun h0 => hne (by rw [h0, Int.zero_ediv])
    have hs : p.tags.s ij.1 ≠ 0 := fun h0 => hne (by rw [h0, Int.ediv_zero])
    rw [h.W _ _ hW, h.s _ hs, mul_comm, sign_div hy]
  · exact h.t j

theorem foldl_ok {α : Type*} (f : PpsProp n → α → PpsProp n)
    (hf : ∀ p a, TagsOK y z p.tags → TagsOK y z (f p a).tags) (l : List α) (p : PpsProp n) (h : TagsOK y z p.tags) :
    TagsOK y z (l.foldl f p).tags := by
  induction l generalizing p with
  | nil => exact h
  | cons a t ih => exact ih _ (hf p a h)

theorem when_ok {p : PpsProp n} (flag : Bool) (f : PpsProp n → PpsProp n) (hf : ∀ p, TagsOK y z p.tags → TagsOK y z (f p).tags)
    (h : TagsOK y z p.tags) : TagsOK y z (p.when flag f).tags := by
  unfold PpsProp.when
  split_ifs
  · exact hf p h
  · exact h

theorem pass_ok (hy : IsSign y) (hz : IsSign z) {p : PpsProp n} (h : TagsOK y z p.tags) : TagsOK y z p.pass.tags := by
  unfold PpsProp.pass
  dsimp only
  refine when_ok _ _ (fun p hp => ?_) <| when_ok _ _ (fun p hp => ?_) <| when_ok _ _ (fun p hp => ?_) <|
    when_ok _ _ (fun p hp => ?_) <| when_ok _ _ (fun p hp => ?_) <| when_ok _ _ (fun p hp => ?_) ?_
  · refine foldl_ok _ (fun q a hq => ?_) _ _ hp
    split_ifs; exacts [setT_ok hy hq a, hq]
  · refine foldl_ok _ (fun q a hq => ?_) _ _ hp
    split_ifs; exacts [setT_ok hy hq a, hq]
  · refine foldl_ok _ (fun q a hq => ?_) _ _ hp
    split_ifs; exacts [setS_ok hz hq a, hq]
  · refine foldl_ok _ (fun q a hq => ?_) _ _ hp
    split_ifs; exacts [setS_ok hz hq a, hq]
  · exact foldl_ok _ (fun q a hq => setW_ok hq a) _ _ hp
  · exact foldl_ok _ (fun q a hq => setW_ok hq a) _ _ hp
  · exact h

theorem run_ok (hy : IsSign y) (hz : IsSign z) (fuel : ℕ) (p : PpsProp n) (g : PpsTags n) (h : TagsOK y z p.tags)
    (hr : p.run fuel = some g) : TagsOK y z g := by
  induction fuel generalizing p with
  | zero =>
    unfold PpsProp.run at hr
    split_ifs at hr
    cases hr
    exact h
  | succ k ih =>
    unfold PpsProp.run at hr
    split_ifs at hr
    · exact ih _ (pass_ok hy hz h) hr
    · cases hr; exact h

theorem refine_ok (hy : IsSign y) (hz : IsSign z) (g : PpsTags n) (im jm : Fin n) (h : TagsOK y z g) :
    TagsOK y z (ppsRefine g im jm) := by
  unfold ppsRefine
  split
  · exact h
  · rename_i kl hkl
    have := List.find?_some hkl
    simp only [decide_eq_true_eq] at this
    obtain ⟨-, h1, h2, h3⟩ := this
    refine ⟨fun i j => ?_, h.s, h.t⟩
    dsimp only
    split_ifs with hc
    · intro _
      obtain ⟨rfl, rfl⟩ := hc
      rw [h.W _ _ h1, h.W _ _ h2, h.W _ _ h3]
      rcases hy kl.1 with e | e <;> rcases hz kl.2 with e' | e' <;> rw [e, e'] <;> ring
    · exact h.W i j

end

/-! ## The ordered list -/

/-- Ordered by `gamma`. -/
def SortedGamma {n : ℕ} (l : List (PpsEl K n)) : Prop := l.Pairwise fun e f => e.gamma ≤ f.gamma

/-- `bisect_left` on a list that is ordered except for its first element. -/
theorem ppsBisect_spec (g : List K) (v : K) (hg : ∀ i j (hi : i < g.length) (hj : j < g.length), 1 ≤ i → i ≤ j → g[i] ≤ g[j])
    (fuel lo hi : ℕ) (hf : hi ≤ lo + fuel) (hlh : lo ≤ hi) (hhi : hi ≤ g.length)
    (h1 : ∀ i (hi : i < g.length), 1 ≤ i → i < lo → g[i] < v)
    (h2 : ∀ i (hi' : i < g.length), 1 ≤ i → hi ≤ i → v ≤ g[i]) :
    (∀ i (hl : i < g.length), 1 ≤ i → i < ppsBisect g v fuel lo hi → g[i] < v) ∧
    (∀ i (hl : i < g.length), 1 ≤ i → ppsBisect g v fuel lo hi ≤ i → v ≤ g[i]) ∧
    ppsBisect g v fuel lo hi ≤ g.length := by
  induction fuel generalizing lo hi with
  | zero =>
    have : lo = hi := by omega
    subst this
    exact ⟨h1, h2, hhi⟩
  | succ k ih =>
    unfold ppsBisect
    split_ifs with hlt
    · dsimp only
      have hm : (lo + hi) / 2 < g.length := by omega
      rw [List.getElem?_eq_getElem hm]
      dsimp only
      split_ifs with hw
      · refine ih _ _ (by omega) (by omega) hhi (fun i hi1 h3 h4 => ?_) h2
        exact lt_of_le_of_lt (hg i _ hi1 hm h3 (by omega)) hw
      · refine ih _ _ (by omega) (by omega) (by omega) h1 fun i hi1 h3 h4 => ?_
        rcases Nat.eq_zero_or_pos ((lo + hi) / 2) with h0 | h0
        · exact h2 i hi1 h3 (by omega)
        · exact le_trans (not_lt.1 hw) (hg _ _ hm hi1 h0 h4)
    · have : lo = hi := by omega
      subst this
      exact ⟨h1, h2, hhi⟩

theorem ppsInsert_spec {n : ℕ} (e L0 : PpsEl K n) (rest : List (PpsEl K n)) (h : SortedGamma rest) :
    SortedGamma (ppsInsert e L0 rest) ∧ ∀ f, f ∈ ppsInsert e L0 rest ↔ f = e ∨ f ∈ rest := by
  set g := (L0 :: rest).map PpsEl.gamma with hg
  have hlen : g.length = rest.length + 1 := by simp [hg]
  have hget : ∀ i (hi : i < rest.length), g[i + 1]'(by omega) = rest[i].gamma := fun i hi => by simp [hg]
  have hp := List.pairwise_iff_getElem.1 h
  obtain ⟨s1, s2, s3⟩ := ppsBisect_spec g e.gamma (fun i j hi hj h1 h2 => by
    obtain ⟨i, rfl⟩ : ∃ k, i = k + 1 := ⟨i - 1, by omega⟩
    obtain ⟨j, rfl⟩ : ∃ k, j = k + 1 := ⟨j - 1, by omega⟩
    rw [hget i (by omega), hget j (by omega)]
    rcases Nat.lt_or_ge i j with h3 | h3
    · exact hp i j (by omega) (by omega) h3
    · obtain rfl : i = j := by omega
      exact le_refl _) (rest.length + 1) 0 (rest.length + 1) (by omega) (by omega) (by omega)
    (fun i _ _ h => absurd h (by omega)) (fun i hi _ h => absurd h (by omega))
  unfold ppsInsert
  rw [← hg]
  dsimp only
  set p := ppsBisect g e.gamma (rest.length + 1) 0 (rest.length + 1) with hpdef
  set q := (if 0 < p then p else 1) - 1 with hq
  have hq1 : q ≤ rest.length := by rw [hq]; split_ifs <;> omega
  have b1 : ∀ i (hi : i < rest.length), i < q → rest[i].gamma < e.gamma := by
    intro i hi hiq
    rw [← hget i hi]
    refine s1 (i + 1) (by omega) (by omega) ?_
    rw [hq] at hiq
    split_ifs at hiq <;> omega
  have b2 : ∀ i (hi : i < rest.length), q ≤ i → e.gamma ≤ rest[i].gamma := by
    intro i hi hiq
    rw [← hget i hi]
    refine s2 (i + 1) (by omega) (by omega) ?_
    rw [hq] at hiq
    split_ifs at hiq <;> omega
  constructor
  · unfold SortedGamma
    rw [List.pairwise_iff_getElem]
    intro i j hi hj hij
    rw [List.length_insertIdx] at hi hj
    rw [if_pos hq1] at hi hj
    rw [List.getElem_insertIdx, List.getElem_insertIdx]
    split_ifs with c1 c2 c3 c4 c5 c6 <;> try omega
    all_goals first
      | exact hp _ _ _ _ (by omega)
      | exact (b1 _ _ c1).le
      | exact b2 _ _ (by omega)
      | skip
  · intro f
    exact List.mem_insertIdx hq1

/-! ## Systems, helpers and the good element of the list -/

/-- An ordinary interval inside another one. -/
def Within (X Z : Iv K) : Prop := Ordinary X ∧ Z.a ≤ X.a ∧ X.b ≤ Z.b

/-- A subsystem of `A x = b`. -/
def Subsystem {n : ℕ} (A : Fin n → Fin n → Iv K) (b : Fin n → Iv K) (Q : Fin n → Fin n → Iv K) (r : Fin n → Iv K) : Prop :=
  (∀ i j, Within (Q i j) (A i j)) ∧ ∀ i, Within (r i) (b i)

/-- On the subsystems, `HBR` encloses the solutions and the interval inverse encloses the inverses. -/
structure HelpersSound {n : ℕ} (P : PpsArg K n) (A : Fin n → Fin n → Iv K) (b : Fin n → Iv K) : Prop where
  hbr : ∀ Q r X, Subsystem A b Q r → P.hbr Q r = .ok X →
    ∀ x, United Q r x → InVec x X ∧ ∀ i, Ordinary (X i)
  inverse : ∀ Q Z, (∀ i j, Within (Q i j) (A i j)) → P.inverse Q = .ok Z →
    (∀ i j, Ordinary (Z i j)) ∧ ∀ Q' Y', InMat Q' Q → IsInverse Q' Y' → InMat Y' Z

theorem inside_point {X Z : Iv K} (h : Within X Z) : Within (pointIv X.a) Z ∧ Within (pointIv X.b) Z := by
  obtain ⟨⟨_, h1⟩, h2, h3⟩ := h
  exact ⟨⟨⟨rfl, le_refl _⟩, h2, h1.trans h3⟩, ⟨⟨rfl, le_refl _⟩, h2.trans h1, h3⟩⟩

theorem mem_pointIv (v w : K) : v ∈ pointIv w ↔ v = w := by
  rw [Iv.mem_def]
  exact ⟨fun h => le_antisymm h.2 h.1, fun h => ⟨h.ge, h.le⟩⟩

/-- Where the minimum is, in terms of the sign pattern. -/
structure Target {n : ℕ} (A : Fin n → Fin n → Iv K) (b : Fin n → Iv K) (nu : Fin n) (Q Y : Fin n → Fin n → K) (r x : Fin n → K)
    (y z : Fin n → ℤ) : Prop where
  hy : IsSign y
  hz : IsSign z
  pos : ∀ i j, 0 < -(Y nu i * x j) ↔ y i * z j = 1
  neg : ∀ i j, -(Y nu i * x j) < 0 ↔ y i * z j = -1
  rpos : ∀ i, 0 < Y nu i ↔ y i = -1
  rneg : ∀ i, Y nu i < 0 ↔ y i = 1
  lo : ∀ i j, y i * z j = 1 → Q i j = (A i j).a
  hi : ∀ i j, y i * z j = -1 → Q i j = (A i j).b
  rlo : ∀ i, y i = -1 → r i = (b i).a
  rhi : ∀ i, y i = 1 → r i = (b i).b

theorem target_exists {n : ℕ} {A : Fin n → Fin n → Iv K} {b : Fin n → Iv K} {nu : Fin n} {Q Y : Fin n → Fin n → K}
    {r x : Fin n → K} (h : Minimal A b nu Q Y r x) (hd : Nondegenerate nu Y x) :
    ∃ y z, Target A b nu Q Y r x y z := by
  obtain ⟨hY, hx⟩ := hd
  have e1 : ∀ i, 0 < Y nu i ∨ Y nu i < 0 := fun i => (lt_or_gt_of_ne (hY i)).symm
  have e2 : ∀ j, 0 < x j ∨ x j < 0 := fun j => (lt_or_gt_of_ne (hx j)).symm
  have key : ∀ i j, (0 < -(Y nu i * x j) ↔ (if 0 < Y nu i then -1 else 1 : ℤ) * (if 0 < x j then 1 else -1) = 1) ∧
      (-(Y nu i * x j) < 0 ↔ (if 0 < Y nu i then -1 else 1 : ℤ) * (if 0 < x j then 1 else -1) = -1) := by
    intro i j
    rcases e1 i with h1 | h1 <;> rcases e2 j with h2 | h2
    · have := mul_pos h1 h2
      rw [if_pos h1, if_pos h2]
      exact ⟨iff_of_false (by linarith) (by decide), iff_of_true (by linarith) (by decide)⟩
    · have := mul_neg_of_pos_of_neg h1 h2
      rw [if_pos h1, if_neg (not_lt.2 h2.le)]
      exact ⟨iff_of_true (by linarith) (by decide), iff_of_false (by linarith) (by decide)⟩
    · have := mul_neg_of_neg_of_pos h1 h2
      rw [if_neg (not_lt.2 h1.le), if_pos h2]
      exact ⟨iff_of_true (by linarith) (by decide), iff_of_false (by linarith) (by decide)⟩
    · have := mul_pos_of_neg_of_neg h1 h2
      rw [if_neg (not_lt.2 h1.le), if_neg (not_lt.2 h2.le)]
      exact ⟨iff_of_false (by linarith) (by decide), iff_of_true (by linarith) (by decide)⟩
  have key1 : ∀ i, (0 < Y nu i ↔ (if 0 < Y nu i then -1 else 1 : ℤ) = -1) ∧
      (Y nu i < 0 ↔ (if 0 < Y nu i then -1 else 1 : ℤ) = 1) := by
    intro i
    rcases e1 i with h1 | h1
    · rw [if_pos h1]; exact ⟨iff_of_true h1 rfl, iff_of_false (not_lt.2 h1.le) (by decide)⟩
    · rw [if_neg (not_lt.2 h1.le)]; exact ⟨iff_of_false (not_lt.2 h1.le) (by decide), iff_of_true h1 rfl⟩
  refine ⟨fun i => if 0 < Y nu i then -1 else 1, fun j => if 0 < x j then 1 else -1, ?_, ?_, fun i j => (key i j).1,
    fun i j => (key i j).2, fun i => (key1 i).1, fun i => (key1 i).2, fun i j hij => h.entry_lo i j ((key i j).1.2 hij),
    fun i j hij => h.entry_hi i j ((key i j).2.2 hij), fun i hi => h.comp_lo i ((key1 i).1.2 hi),
    fun i hi => h.comp_hi i ((key1 i).2.2 hi)⟩
  · intro i; dsimp only; split_ifs <;> simp
  · intro i; dsimp only; split_ifs <;> simp

/-- The element of the list that leads to the minimum. -/
structure GoodEl {n : ℕ} (A : Fin n → Fin n → Iv K) (b : Fin n → Iv K) (nu : Fin n) (Q Y : Fin n → Fin n → K) (r x : Fin n → K)
    (y z : Fin n → ℤ) (e : PpsEl K n) : Prop where
  sub : Subsystem A b e.Q e.r
  mQ : InMat Q e.Q
  mr : InVec r e.r
  oY : ∀ i j, Ordinary (e.Y i j)
  mY : InMat Y e.Y
  ox : ∀ j, Ordinary (e.x j)
  mx : InVec x e.x
  tags : TagsOK y z e.tags
  gamma : e.gamma ≤ x nu

section
variable {n : ℕ} {P : PpsArg K n} {A : Fin n → Fin n → Iv K} {b : Fin n → Iv K} {Q Y : Fin n → Fin n → K} {r x : Fin n → K}
  {y z : Fin n → ℤ}

theorem end_lo {X Z : Iv K} {q : K} (h : Within X Z) (hq : q ∈ X) (he : q = Z.a) : q = X.a :=
  le_antisymm (he ▸ h.2.1) (Iv.mem_def.1 hq).1

theorem end_hi {X Z : Iv K} {q : K} (h : Within X Z) (hq : q ∈ X) (he : q = Z.b) : q = X.b :=
  le_antisymm (Iv.mem_def.1 hq).2 (he ▸ h.2.2)

theorem ppsD_mem (e : PpsEl K n) (he : GoodEl A b P.nu Q Y r x y z e) (i j : Fin n) : -(Y P.nu i * x j) ∈ ppsD P e i j := by
  have h1 := C02_mul_encloses P.R _ _ (he.oY P.nu i) (he.ox j) _ ⟨_, he.mY P.nu i, _, he.mx j, rfl⟩
  exact (C01_neg_range _ (h1.1.trans h1.2)).1 _ ⟨_, h1, rfl⟩

/-- The monotony test keeps the good element good. -/
theorem monotone_good (T : Target A b P.nu Q Y r x y z) (e : PpsEl K n) (he : GoodEl A b P.nu Q Y r x y z e) :
    GoodEl A b P.nu Q Y r x y z (ppsMonotone P e) := by
  have hge : ∀ i j, geZero (ppsD P e i j) = true → y i * z j = 1 ∨ y i * z j = -1 → y i * z j = 1 := by
    intro i j h h'
    rcases h' with h' | h'
    · exact h'
    · have := (T.neg i j).2 h'
      simp only [geZero, decide_eq_true_eq] at h
      have := (Iv.mem_def.1 (ppsD_mem e he i j)).1
      linarith
  have hle : ∀ i j, leZero (ppsD P e i j) = true → y i * z j = 1 ∨ y i * z j = -1 → y i * z j = -1 := by
    intro i j h h'
    rcases h' with h' | h'
    · have := (T.pos i j).2 h'
      simp only [leZero, decide_eq_true_eq] at h
      have := (Iv.mem_def.1 (ppsD_mem e he i j)).2
      linarith
    · exact h'
  have hs : ∀ i j, y i * z j = 1 ∨ y i * z j = -1 := by
    intro i j
    rcases T.hy i with e1 | e1 <;> rcases T.hz j with e2 | e2 <;> rw [e1, e2] <;> simp
  have rge : ∀ i, geZero (e.Y P.nu i) = true → y i = -1 := by
    intro i h
    rcases T.hy i with e1 | e1
    · have := (T.rneg i).2 e1
      simp only [geZero, decide_eq_true_eq] at h
      have := (Iv.mem_def.1 (he.mY P.nu i)).1
      linarith
    · exact e1
  have rle : ∀ i, leZero (e.Y P.nu i) = true → y i = 1 := by
    intro i h
    rcases T.hy i with e1 | e1
    · exact e1
    · have := (T.rpos i).2 e1
      simp only [leZero, decide_eq_true_eq] at h
      have := (Iv.mem_def.1 (he.mY P.nu i)).2
      linarith
  have hQ : ∀ i j, Within ((ppsMonotone P e).Q i j) (A i j) ∧ Q i j ∈ (ppsMonotone P e).Q i j := by
    intro i j
    have h1 := he.sub.1 i j
    have h2 := he.mQ i j
    dsimp only [ppsMonotone]
    by_cases c1 : geZero (ppsD P e i j) = true <;> by_cases c2 : leZero (ppsD P e i j) = true
    · have := hge i j c1 (hs i j)
      have := hle i j c2 (hs i j)
      omega
    · rw [if_pos c1, if_neg c2]
      exact ⟨(inside_point h1).1, (mem_pointIv _ _).2 (end_lo h1 h2 (T.lo i j (hge i j c1 (hs i j))))⟩
    · rw [if_neg c1, if_pos c2]
      exact ⟨(inside_point h1).2, (mem_pointIv _ _).2 (end_hi h1 h2 (T.hi i j (hle i j c2 (hs i j))))⟩
    · rw [if_neg c1, if_neg c2]
      exact ⟨h1, h2⟩
  have hr : ∀ i, Within ((ppsMonotone P e).r i) (b i) ∧ r i ∈ (ppsMonotone P e).r i := by
    intro i
    have h1 := he.sub.2 i
    have h2 := he.mr i
    dsimp only [ppsMonotone]
    by_cases c1 : geZero (e.Y P.nu i) = true <;> by_cases c2 : leZero (e.Y P.nu i) = true
    · have := rge i c1
      have := rle i c2
      omega
    · rw [if_pos c1, if_neg c2]
      exact ⟨(inside_point h1).1, (mem_pointIv _ _).2 (end_lo h1 h2 (T.rlo i (rge i c1)))⟩
    · rw [if_neg c1, if_pos c2]
      exact ⟨(inside_point h1).2, (mem_pointIv _ _).2 (end_hi h1 h2 (T.rhi i (rle i c2)))⟩
    · rw [if_neg c1, if_neg c2]
      exact ⟨h1, h2⟩
  refine ⟨⟨fun i j => (hQ i j).1, fun i => (hr i).1⟩, fun i j => (hQ i j).2, fun i => (hr i).2, he.oY, he.mY, he.ox, he.mx,
    ⟨fun i j => ?_, fun i => ?_, he.tags.t⟩, he.gamma⟩
  · dsimp only [ppsMonotone]
    split_ifs with c1 c2
    · exact fun _ => (hle i j c1 (hs i j)).symm
    · exact fun _ => (hge i j c2 (hs i j)).symm
    · exact he.tags.W i j
  · dsimp only [ppsMonotone]
    split_ifs with c1 c2
    · exact fun _ => (rle i c1).symm
    · exact fun _ => (rge i c2).symm
    · exact he.tags.s i

/-- What a successful call of `split` has done. -/
theorem split_inv (l0 : PpsEl K n) (omega : Option K) (ind fl : Bool) (Q' : Fin n → Fin n → Iv K) (r' : Fin n → Iv K)
    (st : PpsProp n) (rest : List (PpsEl K n)) (p : List (PpsEl K n) × K)
    (h : ppsSplit P l0 omega ind fl Q' r' st rest = .ok p) :
    ∃ vx mn, P.hbr Q' r' = .ok vx ∧ P.solve (fun i j => (Q' i j).mid P.R) (fun i => (r' i).mid P.R) = .ok mn ∧
      p.2 = mn P.nu ∧
      ((ltOmega (vx P.nu).a omega = false ∧ p.1 = rest) ∨
       (ltOmega (vx P.nu).a omega = true ∧ ∃ tags Z, (if ind then st.run P.fuel else some st.tags) = some tags ∧
          (if fl then P.inverse Q' else .ok l0.Y) = .ok Z ∧
          p.1 = ppsInsert ⟨(vx P.nu).a, Q', r', Z, vx, tags⟩ l0 rest)) := by
  unfold ppsSplit at h
  split at h
  · cases h
  rename_i vx hvx
  split at h
  · cases h
  rename_i mn hmn
  by_cases ho : ltOmega (vx P.nu).a omega = true
  · rw [if_pos ho] at h
    split at h
    · cases h
    rename_i tags htags
    split at h
    · cases h
    rename_i Z hZ
    cases h
    exact ⟨vx, mn, hvx, hmn, rfl, .inr ⟨ho, tags, Z, htags, hZ, rfl⟩⟩
  · rw [if_neg ho] at h
    cases h
    exact ⟨vx, mn, hvx, hmn, rfl, .inl ⟨by simpa using ho, rfl⟩⟩

/-- What `split` does to the list, whatever the system. -/
theorem split_list (l0 : PpsEl K n) (omega : Option K) (ind fl : Bool) (Q' : Fin n → Fin n → Iv K) (r' : Fin n → Iv K)
    (st : PpsProp n) (rest : List (PpsEl K n)) (p : List (PpsEl K n) × K) (hs : SortedGamma rest)
    (h : ppsSplit P l0 omega ind fl Q' r' st rest = .ok p) :
    SortedGamma p.1 ∧ ∀ f ∈ rest, f ∈ p.1 := by
  obtain ⟨vx, mn, -, -, -, ⟨-, h⟩ | ⟨-, tags, Z, -, -, h⟩⟩ := split_inv _ _ _ _ _ _ _ _ _ h
  · rw [h]; exact ⟨hs, fun f hf => hf⟩
  · obtain ⟨h1, h2⟩ := ppsInsert_spec (⟨(vx P.nu).a, Q', r', Z, vx, tags⟩ : PpsEl K n) l0 rest hs
    rw [h]
    exact ⟨h1, fun f hf => (h2 f).2 (.inr hf)⟩

/-- `split` of a system that contains the minimum keeps it, or the upper bound is good enough. -/
theorem split_good (H : HelpersSound P A b) (M : Minimal A b P.nu Q Y r x) (T : Target A b P.nu Q Y r x y z)
    (l0 : PpsEl K n) (h0 : GoodEl A b P.nu Q Y r x y z l0) (omega : Option K) (ind fl : Bool) (Q' : Fin n → Fin n → Iv K)
    (r' : Fin n → Iv K) (st : PpsProp n) (rest : List (PpsEl K n)) (p : List (PpsEl K n) × K) (hs : SortedGamma rest)
    (h : ppsSplit P l0 omega ind fl Q' r' st rest = .ok p) (hsub : Subsystem A b Q' r') (hQ : InMat Q Q') (hr : InVec r r')
    (hst : TagsOK y z st.tags) :
    (∃ f ∈ p.1, GoodEl A b P.nu Q Y r x y z f) ∨ ∃ w, omega = some w ∧ w ≤ x P.nu := by
  obtain ⟨vx, mn, hvx, -, -, hc⟩ := split_inv _ _ _ _ _ _ _ _ _ h
  obtain ⟨hx, ov⟩ := H.hbr Q' r' vx hsub hvx x ⟨Q, hQ, r, hr, M.sol⟩
  rcases hc with ⟨ho, -⟩ | ⟨-, tags, Z, htags, hZ, hp⟩
  · cases omega with
    | none => cases ho
    | some w =>
      simp only [ltOmega, decide_eq_false_iff_not, not_lt] at ho
      exact .inr ⟨w, rfl, ho.trans (Iv.mem_def.1 (hx P.nu)).1⟩
  · have htok : TagsOK y z tags := by
      cases ind with
      | false => simp only [Bool.false_eq_true, if_false, Option.some.injEq] at htags; exact htags ▸ hst
      | true => exact run_ok T.hy T.hz _ _ _ hst (by simpa using htags)
    obtain ⟨-, h2⟩ := ppsInsert_spec (⟨(vx P.nu).a, Q', r', Z, vx, tags⟩ : PpsEl K n) l0 rest hs
    rw [hp]
    refine .inl ⟨_, (h2 _).2 (.inl rfl), hsub, hQ, hr, ?_, ?_, ov, hx, htok, (Iv.mem_def.1 (hx P.nu)).1⟩
    · cases fl with
      | false => simp only [Bool.false_eq_true, if_false, Except.ok.injEq] at hZ; exact hZ ▸ h0.oY
      | true => exact (H.inverse Q' Z hsub.1 (by simpa using hZ)).1
    · cases fl with
      | false => simp only [Bool.false_eq_true, if_false, Except.ok.injEq] at hZ; exact hZ ▸ h0.mY
      | true => exact (H.inverse Q' Z hsub.1 (by simpa using hZ)).2 Q Y hQ M.inv

theorem two_list (l0 : PpsEl K n) (omega : Option K) (fl : Bool) (Q1 Q2 : Fin n → Fin n → Iv K) (r1 r2 : Fin n → Iv K)
    (st1 st2 : PpsProp n) (rest : List (PpsEl K n)) (p : List (PpsEl K n) × K) (hs : SortedGamma rest)
    (h : ppsTwo P l0 omega fl Q1 Q2 r1 r2 st1 st2 rest = .ok p) :
    SortedGamma p.1 ∧ ∀ f ∈ rest, f ∈ p.1 := by
  unfold ppsTwo at h
  split at h
  · cases h
  rename_i p1 hp1
  split at h
  · cases h
  rename_i p2 hp2
  cases h
  obtain ⟨a1, a2⟩ := split_list _ _ _ _ _ _ _ _ _ hs hp1
  obtain ⟨b1, b2⟩ := split_list _ _ _ _ _ _ _ _ _ a1 hp2
  exact ⟨b1, fun f hf => b2 f (a2 f hf)⟩

/-- One of the two descendants contains the minimum. -/
theorem two_good (H : HelpersSound P A b) (M : Minimal A b P.nu Q Y r x) (T : Target A b P.nu Q Y r x y z)
    (l0 : PpsEl K n) (h0 : GoodEl A b P.nu Q Y r x y z l0) (omega : Option K) (fl : Bool) (Q1 Q2 : Fin n → Fin n → Iv K)
    (r1 r2 : Fin n → Iv K) (st1 st2 : PpsProp n) (rest : List (PpsEl K n)) (p : List (PpsEl K n) × K) (hs : SortedGamma rest)
    (h : ppsTwo P l0 omega fl Q1 Q2 r1 r2 st1 st2 rest = .ok p)
    (hc : (Subsystem A b Q1 r1 ∧ InMat Q Q1 ∧ InVec r r1 ∧ TagsOK y z st1.tags) ∨
      (Subsystem A b Q2 r2 ∧ InMat Q Q2 ∧ InVec r r2 ∧ TagsOK y z st2.tags)) :
    (∃ f ∈ p.1, GoodEl A b P.nu Q Y r x y z f) ∨ ∃ w, omega = some w ∧ w ≤ x P.nu := by
  unfold ppsTwo at h
  split at h
  · cases h
  rename_i p1 hp1
  split at h
  · cases h
  rename_i p2 hp2
  cases h
  obtain ⟨a1, a2⟩ := split_list _ _ _ _ _ _ _ _ _ hs hp1
  obtain ⟨b1, b2⟩ := split_list _ _ _ _ _ _ _ _ _ a1 hp2
  rcases hc with ⟨c1, c2, c3, c4⟩ | ⟨c1, c2, c3, c4⟩
  · rcases split_good H M T l0 h0 omega true fl Q1 r1 st1 rest p1 hs hp1 c1 c2 c3 c4 with ⟨f, hf, hg⟩ | h1
    · exact .inl ⟨f, b2 f hf, hg⟩
    · exact .inr h1
  · exact split_good H M T l0 h0 omega true fl Q2 r2 st2 p1.1 p2 a1 hp2 c1 c2 c3 c4

theorem setEntry_inMat {Q' : Fin n → Fin n → Iv K} (h : InMat Q Q') (i j : Fin n) (v : Iv K) (hv : Q i j ∈ v) :
    InMat Q (setEntry Q' i j v) := by
  intro k l
  unfold setEntry
  split_ifs with hk
  · rw [hk.1, hk.2]; exact hv
  · exact h k l

theorem setComp_inVec {r' : Fin n → Iv K} (h : InVec r r') (i : Fin n) (v : Iv K) (hv : r i ∈ v) :
    InVec r (setComp r' i v) := by
  intro k
  unfold setComp
  split_ifs with hk
  · rw [hk]; exact hv
  · exact h k

theorem setEntry_inside {Q' : Fin n → Fin n → Iv K} (h : ∀ i j, Within (Q' i j) (A i j)) (i j : Fin n) (v : Iv K)
    (hv : Within v (A i j)) : ∀ k l, Within (setEntry Q' i j v k l) (A k l) := by
  intro k l
  unfold setEntry
  split_ifs with hk
  · rw [hk.1, hk.2]; exact hv
  · exact h k l

theorem setComp_inside {r' : Fin n → Iv K} (h : ∀ i, Within (r' i) (b i)) (i : Fin n) (v : Iv K)
    (hv : Within v (b i)) : ∀ k, Within (setComp r' i v k) (b k) := by
  intro k
  unfold setComp
  split_ifs with hk
  · rw [hk]; exact hv
  · exact h k

theorem startW_ok {g : PpsTags n} (h : TagsOK y z g) (i j : Fin n) (v : ℤ) (hv : v = y i * z j) :
    TagsOK y z (startW g i j v).tags := by
  refine ⟨fun k l => ?_, h.s, h.t⟩
  dsimp only [startW, setEntry]
  split_ifs with hk
  · rw [hk.1, hk.2]; exact fun _ => hv
  · exact h.W k l

theorem startS_ok {g : PpsTags n} (h : TagsOK y z g) (i : Fin n) (v : ℤ) (hv : v = y i) :
    TagsOK y z (startS g i v).tags := by
  refine ⟨h.W, fun k => ?_, h.t⟩
  dsimp only [startS, setComp]
  split_ifs with hk
  · rw [hk]; exact fun _ => hv
  · exact h.s k

/-- The descendants: the list stays ordered and nothing is lost. -/
theorem descend_list (omega : Option K) (l : PpsEl K n) (big : Bool) (ij : Fin n × Fin n) (i2 : Fin n) (rest : List (PpsEl K n))
    (p : List (PpsEl K n) × K) (hs : SortedGamma rest) (h : ppsDescend P omega l big ij i2 rest = .ok p) :
    SortedGamma p.1 ∧ ∀ f ∈ rest, f ∈ p.1 := by
  unfold ppsDescend at h
  dsimp only at h
  split_ifs at h
  · exact two_list _ _ _ _ _ _ _ _ _ _ _ hs h
  · exact split_list _ _ _ _ _ _ _ _ _ hs h
  · exact split_list _ _ _ _ _ _ _ _ _ hs h
  · exact two_list _ _ _ _ _ _ _ _ _ _ _ hs h
  · exact split_list _ _ _ _ _ _ _ _ _ hs h
  · exact split_list _ _ _ _ _ _ _ _ _ hs h

theorem descend_good (H : HelpersSound P A b) (M : Minimal A b P.nu Q Y r x) (T : Target A b P.nu Q Y r x y z)
    (omega : Option K) (l2 : PpsEl K n) (big : Bool) (ij : Fin n × Fin n) (i2 : Fin n) (rest : List (PpsEl K n))
    (p : List (PpsEl K n) × K) (hs : SortedGamma rest) (h : ppsDescend P omega l2 big ij i2 rest = .ok p)
    (g2 : GoodEl A b P.nu Q Y r x y z l2) :
    (∃ f ∈ p.1, GoodEl A b P.nu Q Y r x y z f) ∨ ∃ w, omega = some w ∧ w ≤ x P.nu := by
  have hs2 : y ij.1 * z ij.2 = 1 ∨ y ij.1 * z ij.2 = -1 := by
    rcases T.hy ij.1 with e1 | e1 <;> rcases T.hz ij.2 with e2 | e2 <;> rw [e1, e2] <;> simp
  have iQ := g2.sub.1 ij.1 ij.2
  have ir := g2.sub.2 i2
  have mlo : y ij.1 * z ij.2 = 1 → Q ij.1 ij.2 ∈ pointIv (l2.Q ij.1 ij.2).a := fun hh =>
    (mem_pointIv _ _).2 (end_lo iQ (g2.mQ _ _) (T.lo _ _ hh))
  have mhi : y ij.1 * z ij.2 = -1 → Q ij.1 ij.2 ∈ pointIv (l2.Q ij.1 ij.2).b := fun hh =>
    (mem_pointIv _ _).2 (end_hi iQ (g2.mQ _ _) (T.hi _ _ hh))
  have rlo : y i2 = -1 → r i2 ∈ pointIv (l2.r i2).a := fun hh =>
    (mem_pointIv _ _).2 (end_lo ir (g2.mr _) (T.rlo _ hh))
  have rhi : y i2 = 1 → r i2 ∈ pointIv (l2.r i2).b := fun hh =>
    (mem_pointIv _ _).2 (end_hi ir (g2.mr _) (T.rhi _ hh))
  have slo := setEntry_inside g2.sub.1 ij.1 ij.2 _ (inside_point iQ).1
  have shi := setEntry_inside g2.sub.1 ij.1 ij.2 _ (inside_point iQ).2
  have tlo := setComp_inside g2.sub.2 i2 _ (inside_point ir).1
  have thi := setComp_inside g2.sub.2 i2 _ (inside_point ir).2
  unfold ppsDescend at h
  dsimp only at h
  split_ifs at h with c0 c1 c2 c3 c4
  · refine two_good H M T _ g2 _ _ _ _ _ _ _ _ _ _ hs h ?_
    rcases hs2 with e | e
    · exact .inl ⟨⟨slo, g2.sub.2⟩, setEntry_inMat g2.mQ _ _ _ (mlo e), g2.mr, startW_ok g2.tags _ _ _ e.symm⟩
    · exact .inr ⟨⟨shi, g2.sub.2⟩, setEntry_inMat g2.mQ _ _ _ (mhi e), g2.mr, startW_ok g2.tags _ _ _ e.symm⟩
  · have e : y ij.1 * z ij.2 = 1 := by rw [← g2.tags.W _ _ c1, c2]
    exact split_good H M T _ g2 _ _ _ _ _ _ _ _ hs h ⟨slo, g2.sub.2⟩ (setEntry_inMat g2.mQ _ _ _ (mlo e)) g2.mr g2.tags
  · have e : y ij.1 * z ij.2 = -1 := by
      rcases hs2 with e | e
      · exact absurd (by rw [g2.tags.W _ _ c1, e]) c2
      · exact e
    exact split_good H M T _ g2 _ _ _ _ _ _ _ _ hs h ⟨shi, g2.sub.2⟩ (setEntry_inMat g2.mQ _ _ _ (mhi e)) g2.mr g2.tags
  · refine two_good H M T _ g2 _ _ _ _ _ _ _ _ _ _ hs h ?_
    rcases T.hy i2 with e | e
    · exact .inr ⟨⟨g2.sub.1, thi⟩, g2.mQ, setComp_inVec g2.mr _ _ (rhi e), startS_ok g2.tags _ _ e.symm⟩
    · exact .inl ⟨⟨g2.sub.1, tlo⟩, g2.mQ, setComp_inVec g2.mr _ _ (rlo e), startS_ok g2.tags _ _ e.symm⟩
  · have e : y i2 = 1 := by rw [← g2.tags.s _ c3, c4]
    exact split_good H M T _ g2 _ _ _ _ _ _ _ _ hs h ⟨g2.sub.1, thi⟩ g2.mQ (setComp_inVec g2.mr _ _ (rhi e)) g2.tags
  · have e : y i2 = -1 := by
      rcases T.hy i2 with e | e
      · exact absurd (by rw [g2.tags.s _ c3, e]) c4
      · exact e
    exact split_good H M T _ g2 _ _ _ _ _ _ _ _ hs h ⟨g2.sub.1, tlo⟩ g2.mQ (setComp_inVec g2.mr _ _ (rlo e)) g2.tags

/-- One pass: the list stays ordered, nothing but the first element is lost. -/
theorem body_spec (omega : Option K) (l : PpsEl K n) (rest : List (PpsEl K n)) (p : List (PpsEl K n) × K)
    (hs : SortedGamma rest) (h : ppsBody P omega l rest = .ok p) :
    SortedGamma p.1 ∧ (∀ f ∈ rest, f ∈ p.1) := by
  unfold ppsBody at h
  dsimp only at h
  split at h
  · exact descend_list _ _ _ _ _ _ _ hs h
  · cases h

/-- A good first element has a good descendant unless the upper bound is good enough. -/
theorem body_good (H : HelpersSound P A b) (M : Minimal A b P.nu Q Y r x) (T : Target A b P.nu Q Y r x y z)
    (omega : Option K) (l : PpsEl K n) (rest : List (PpsEl K n)) (p : List (PpsEl K n) × K) (hs : SortedGamma rest)
    (h : ppsBody P omega l rest = .ok p) (hl : GoodEl A b P.nu Q Y r x y z l) :
    (∃ f ∈ p.1, GoodEl A b P.nu Q Y r x y z f) ∨ ∃ w, omega = some w ∧ w ≤ x P.nu := by
  unfold ppsBody at h
  dsimp only at h
  have g1 := monotone_good T l hl
  split at h
  · rename_i ij i2 _ _
    exact descend_good H M T _ _ _ _ _ _ _ hs h { g1 with tags := refine_ok T.hy T.hz _ _ _ g1.tags }
  · cases h

theorem ppsOmega_le (mu : K) (omega : Option K) (w : K) (h : omega = some w) : ppsOmega mu omega ≤ w := by
  subst h
  simp only [ppsOmega]
  split_ifs with h
  · exact h.le
  · exact le_refl _

theorem loop_lower (H : HelpersSound P A b) (M : Minimal A b P.nu Q Y r x) (T : Target A b P.nu Q Y r x y z) (k : ℕ)
    (omega ocenka : Option K) (l : PpsEl K n) (rest : List (PpsEl K n)) (v : K × ℕ)
    (h1 : ∀ u, ocenka = some u → u ≤ x P.nu) (h2 : SortedGamma rest)
    (h3 : (∃ f ∈ l :: rest, GoodEl A b P.nu Q Y r x y z f) ∨ ∃ w, omega = some w ∧ w ≤ x P.nu)
    (h : ppsLoop P k omega ocenka l rest = .ok v) : v.1 ≤ x P.nu := by
  induction k generalizing omega ocenka l rest with
  | zero =>
    unfold ppsLoop at h
    split at h
    · cases h
    · cases h; exact h1 _ rfl
  | succ k ih =>
    unfold ppsLoop at h
    split_ifs at h
    · split at h
      · cases h
      rename_i p hp
      obtain ⟨s1, s2⟩ := body_spec _ _ _ _ h2 hp
      have g : (∃ f ∈ p.1, GoodEl A b P.nu Q Y r x y z f) ∨ ∃ w, omega = some w ∧ w ≤ x P.nu := by
        rcases h3 with ⟨f, hf, hg⟩ | h3
        · rcases List.mem_cons.1 hf with rfl | hf
          · exact body_good H M T _ _ _ _ h2 hp hg
          · exact .inl ⟨f, s2 f hf, hg⟩
        · exact .inr h3
      dsimp only at h
      have g' : (∃ f ∈ p.1.filter fun e => decide (e.gamma ≤ ppsOmega p.2 omega), GoodEl A b P.nu Q Y r x y z f) ∨
          ppsOmega p.2 omega ≤ x P.nu := by
        rcases g with ⟨f, hf, hg⟩ | ⟨w, hw, hx⟩
        · by_cases hc : f.gamma ≤ ppsOmega p.2 omega
          · exact .inl ⟨f, List.mem_filter.2 ⟨hf, by simpa using hc⟩, hg⟩
          · exact .inr ((not_le.1 hc).le.trans hg.gamma)
        · exact .inr ((ppsOmega_le _ _ w hw).trans hx)
      have hf := fun e => @List.mem_filter _ (fun e : PpsEl K n => decide (e.gamma ≤ ppsOmega p.2 omega)) p.1 e
      have sf : SortedGamma (p.1.filter fun e => decide (e.gamma ≤ ppsOmega p.2 omega)) := List.Pairwise.filter _ s1
      generalize (p.1.filter fun e => decide (e.gamma ≤ ppsOmega p.2 omega)) = L at h g' hf sf
      cases L with
      | nil =>
        cases h
        rcases g' with ⟨f, hf, _⟩ | h
        · cases hf
        · exact h
      | cons l' rest' =>
        have hs' := List.pairwise_cons.1 sf
        refine ih (some (ppsOmega p.2 omega)) (some l'.gamma) l' rest' ?_ hs'.2 ?_ h
        · intro u hu
          cases hu
          rcases g' with ⟨f, hf, hg⟩ | h
          · rcases List.mem_cons.1 hf with rfl | hf
            · exact hg.gamma
            · exact (hs'.1 f hf).trans hg.gamma
          · have := ((hf l').1 (by simp)).2
            exact (by simpa using this : l'.gamma ≤ _).trans h
        · rcases g' with h | h
          · exact .inl h
          · exact .inr ⟨_, rfl, h⟩
    · split at h
      · cases h
      · cases h; exact h1 _ rfl

/-- The value returned by `algo(nu)` does not exceed the least component. -/
theorem algo_lower (H : HelpersSound P A b) (hA : ∀ i j, Ordinary (A i j)) (hb : ∀ i, Ordinary (b i))
    (M : Minimal A b P.nu Q Y r x) (hd : Nondegenerate P.nu Y x) (maxiter : ℤ) (invA : Fin n → Fin n → Iv K)
    (hinv : P.inverse A = .ok invA) (v : K × ℕ) (h : ppsRun P maxiter A invA b = .ok v) : v.1 ≤ x P.nu := by
  obtain ⟨y, z, T⟩ := target_exists M hd
  have sub : Subsystem A b A b := ⟨fun i j => ⟨hA i j, le_refl _, le_refl _⟩, fun i => ⟨hb i, le_refl _, le_refl _⟩⟩
  unfold ppsRun at h
  split at h
  · cases h
  rename_i vx hvx
  obtain ⟨hx, ov⟩ := H.hbr A b vx sub hvx x ⟨Q, M.hQ, r, M.hr, M.sol⟩
  obtain ⟨oi, mi⟩ := H.inverse A invA sub.1 hinv
  refine loop_lower H M T _ _ _ _ _ _ (fun u hu => by cases hu) List.Pairwise.nil (.inl ⟨_, List.mem_cons_self, ?_⟩) h
  exact ⟨sub, M.hQ, M.hr, oi, mi Q Y M.hQ M.inv, ov, hx,
    ⟨fun _ _ h => absurd rfl h, fun _ h => absurd rfl h, fun _ h => absurd rfl h⟩, (Iv.mem_def.1 (hx P.nu)).1⟩

end

/-! ## The minimum is attained at a vertex -/

/-- Every point matrix in `A` is regular. -/
def Regular {n : ℕ} (A : Fin n → Fin n → Iv K) : Prop := ∀ Q, InMat Q A → ∃ Y, IsInverse Q Y

/-- The solution of a regular system. -/
theorem solution_unique {n : ℕ} {Q Y : Fin n → Fin n → K} (h : IsInverse Q Y) {r x : Fin n → K} (hx : ∀ i, apply Q x i = r i) :
    x = apply Y r := by
  funext k
  have : apply Y r k = ∑ j, (∑ i, Y k i * Q i j) * x j := by
    unfold apply at hx ⊢
    simp only [← hx, Finset.mul_sum, Finset.sum_mul]
    rw [Finset.sum_comm]
    exact Finset.sum_congr rfl fun i _ => Finset.sum_congr rfl fun j _ => by ring
  rw [this]
  simp only [h.left]
  simp

theorem solution_exists {n : ℕ} {Q Y : Fin n → Fin n → K} (h : IsInverse Q Y) (r : Fin n → K) (i : Fin n) :
    apply Q (apply Y r) i = r i := by
  have : apply Q (apply Y r) i = ∑ j, (∑ k, Q i k * Y k j) * r j := by
    unfold apply
    simp only [Finset.mul_sum, Finset.sum_mul]
    rw [Finset.sum_comm]
    exact Finset.sum_congr rfl fun i _ => Finset.sum_congr rfl fun j _ => by ring
  rw [this]
  simp only [h i]
  simp

/-- In a regular interval matrix, the denominator of a change of one entry stays positive. -/
theorem denominator_pos {n : ℕ} {A : Fin n → Fin n → Iv K} (hA : Regular A) {Q Y : Fin n → Fin n → K} (hQ : InMat Q A)
    (hi : IsInverse Q Y) (i j : Fin n) (δ : K) (hδ : Q i j + δ ∈ A i j) : 0 < 1 + δ * Y j i := by
  have hne : ∀ δ, Q i j + δ ∈ A i j → 1 + δ * Y j i ≠ 0 := by
    intro δ hδ h0
    obtain ⟨Z, hZ⟩ := hA _ (setEntry_mem hQ i j _ hδ)
    have e1 : ∀ k, apply (setEntry Q i j (Q i j + δ)) (fun l => Y l i) k = 0 := by
      intro k
      have : apply (setEntry Q i j (Q i j + δ)) (fun l => Y l i) k = apply Q (fun l => Y l i) k + if k = i then δ * Y j i else 0 := by
        unfold apply setEntry
        by_cases hk : k = i
        · subst hk
          have : ∀ l, (if k = k ∧ l = j then Q k j + δ else Q k l) * Y l k = Q k l * Y l k + if l = j then δ * Y j k else 0 := by
            intro l
            by_cases hl : l = j
            · subst hl; simp; ring
            · simp [hl]
          rw [Finset.sum_congr rfl fun l _ => this l]
          simp only [Finset.sum_add_distrib, Finset.sum_ite_eq', Finset.mem_univ, if_true]
        · simp [hk]
      rw [this, apply, hi k i]
      split_ifs
      · exact h0
      · simp
    have e2 := solution_unique hZ e1
    have e3 : ∀ l, Y l i = 0 := by
      intro l
      have := congrFun e2 l
      simpa [apply] using this
    have := hi i i
    simp [e3] at this
  have h0 := hne δ hδ
  by_contra hc
  have hneg : 1 + δ * Y j i < 0 := lt_of_le_of_ne (not_lt.1 hc) h0
  have hY : Y j i ≠ 0 := by rintro h; rw [h] at hneg; linarith
  have hm := Iv.mem_def.1 (hQ i j)
  have hd := Iv.mem_def.1 hδ
  refine hne (-1 / Y j i) ?_ (by field_simp; ring)
  rcases lt_or_gt_of_ne hY with hy | hy
  · have hδ0 : 0 < -1 / Y j i := div_pos_of_neg_of_neg (by norm_num) hy
    have : -1 / Y j i ≤ δ := by rw [div_le_iff_of_neg hy]; linarith
    exact Iv.mem_def.2 ⟨by linarith, by linarith⟩
  · have hδ0 : -1 / Y j i < 0 := div_neg_of_neg_of_pos (by norm_num) hy
    have : δ ≤ -1 / Y j i := by rw [le_div_iff₀ hy]; linarith
    exact Iv.mem_def.2 ⟨by linarith, by linarith⟩

/-- One entry of the matrix can be moved to an end without increasing the component. -/
theorem vertex_entry {n : ℕ} {A : Fin n → Fin n → Iv K} (hA : Regular A) (nu : Fin n) {Q : Fin n → Fin n → K}
    {r x : Fin n → K} (hQ : InMat Q A) (hx : ∀ k, apply Q x k = r k) (i j : Fin n) :
    ∃ v x', (v = (A i j).a ∨ v = (A i j).b) ∧ v ∈ A i j ∧ (∀ k, apply (setEntry Q i j v) x' k = r k) ∧ x' nu ≤ x nu := by
  obtain ⟨Y, hY⟩ := hA Q hQ
  have hm := Iv.mem_def.1 (hQ i j)
  have key : ∀ v, v ∈ A i j → (v - Q i j) * -(Y nu i * x j) ≤ 0 → ∃ x', (∀ k, apply (setEntry Q i j v) x' k = r k) ∧ x' nu ≤ x nu := by
    intro v hv hs
    have hp := denominator_pos hA hQ hY i j (v - Q i j) (by simpa using hv)
    have := move_entry Q Y r x hY hx i j (v - Q i j) hp.ne'
    rw [show Q i j + (v - Q i j) = v by ring] at this
    refine ⟨_, this, ?_⟩
    have e : (v - Q i j) * x j / (1 + (v - Q i j) * Y j i) * Y nu i
        = -(((v - Q i j) * -(Y nu i * x j)) / (1 + (v - Q i j) * Y j i)) := by field_simp
    have := div_nonpos_of_nonpos_of_nonneg hs hp.le
    linarith
  rcases le_total 0 (-(Y nu i * x j)) with hd | hd
  · have hv : (A i j).a ∈ A i j := Iv.mem_def.2 ⟨le_refl _, hm.1.trans hm.2⟩
    obtain ⟨x', h1, h2⟩ := key _ hv (mul_nonpos_of_nonpos_of_nonneg (by linarith) hd)
    exact ⟨_, x', .inl rfl, hv, h1, h2⟩
  · have hv : (A i j).b ∈ A i j := Iv.mem_def.2 ⟨hm.1.trans hm.2, le_refl _⟩
    obtain ⟨x', h1, h2⟩ := key _ hv (mul_nonpos_of_nonneg_of_nonpos (by linarith) hd)
    exact ⟨_, x', .inr rfl, hv, h1, h2⟩

/-- One component of the right-hand side can be moved to an end without increasing the component. -/
theorem vertex_comp {n : ℕ} {A : Fin n → Fin n → Iv K} {b : Fin n → Iv K} (hA : Regular A) (nu : Fin n)
    {Q : Fin n → Fin n → K} {r x : Fin n → K} (hQ : InMat Q A) (hr : InVec r b) (hx : ∀ k, apply Q x k = r k) (i : Fin n) :
    ∃ v x', (v = (b i).a ∨ v = (b i).b) ∧ v ∈ b i ∧ (∀ k, apply Q x' k = setComp r i v k) ∧ x' nu ≤ x nu := by
  obtain ⟨Y, hY⟩ := hA Q hQ
  have hm := Iv.mem_def.1 (hr i)
  have key : ∀ v, (v - r i) * Y nu i ≤ 0 → ∃ x', (∀ k, apply Q x' k = setComp r i v k) ∧ x' nu ≤ x nu := by
    intro v hs
    have := move_comp Q Y r x hY hx i (v - r i)
    rw [show r i + (v - r i) = v by ring] at this
    refine ⟨_, this, ?_⟩
    linarith
  rcases le_total 0 (Y nu i) with hd | hd
  · obtain ⟨x', h1, h2⟩ := key (b i).a (mul_nonpos_of_nonpos_of_nonneg (by linarith) hd)
    exact ⟨_, x', .inl rfl, Iv.mem_def.2 ⟨le_refl _, hm.1.trans hm.2⟩, h1, h2⟩
  · obtain ⟨x', h1, h2⟩ := key (b i).b (mul_nonpos_of_nonneg_of_nonpos (by linarith) hd)
    exact ⟨_, x', .inr rfl, Iv.mem_def.2 ⟨hm.1.trans hm.2, le_refl _⟩, h1, h2⟩

/-- Some entries are at their ends. -/
theorem vertex_entries {n : ℕ} {A : Fin n → Fin n → Iv K} (hA : Regular A) (nu : Fin n) (r : Fin n → K)
    (l : List (Fin n × Fin n)) (Q : Fin n → Fin n → K) (x : Fin n → K) (hQ : InMat Q A) (hx : ∀ k, apply Q x k = r k)
    (S : Fin n × Fin n → Prop) (hS : ∀ i j, S (i, j) → Q i j = (A i j).a ∨ Q i j = (A i j).b) :
    ∃ Q' x', InMat Q' A ∧ (∀ k, apply Q' x' k = r k) ∧ x' nu ≤ x nu ∧
      ∀ i j, S (i, j) ∨ (i, j) ∈ l → Q' i j = (A i j).a ∨ Q' i j = (A i j).b := by
  induction l generalizing Q x S with
  | nil => exact ⟨Q, x, hQ, hx, le_refl _, fun i j h => hS i j (h.resolve_right (by simp))⟩
  | cons p t ih =>
    obtain ⟨v, x', h1, h2, h3, h4⟩ := vertex_entry hA nu hQ hx p.1 p.2
    obtain ⟨Q'', x'', a1, a2, a3, a4⟩ := ih _ x' (setEntry_mem hQ p.1 p.2 v h2) h3 (fun q => S q ∨ q = p) (by
      intro i j hij
      unfold setEntry
      split_ifs with hc
      · rw [hc.1, hc.2]; exact h1
      · refine hS i j (hij.resolve_right fun he => hc ?_)
        rw [← he]; exact ⟨rfl, rfl⟩)
    refine ⟨Q'', x'', a1, a2, a3.trans h4, fun i j hij => a4 i j ?_⟩
    rcases hij with h | h
    · exact .inl (.inl h)
    · rcases List.mem_cons.1 h with h | h
      · exact .inl (.inr h)
      · exact .inr h

theorem vertex_comps {n : ℕ} {A : Fin n → Fin n → Iv K} {b : Fin n → Iv K} (hA : Regular A) (nu : Fin n) (Q : Fin n → Fin n → K)
    (hQ : InMat Q A) (l : List (Fin n)) (r x : Fin n → K) (hr : InVec r b) (hx : ∀ k, apply Q x k = r k)
    (S : Fin n → Prop) (hS : ∀ i, S i → r i = (b i).a ∨ r i = (b i).b) :
    ∃ r' x', InVec r' b ∧ (∀ k, apply Q x' k = r' k) ∧ x' nu ≤ x nu ∧ ∀ i, S i ∨ i ∈ l → r' i = (b i).a ∨ r' i = (b i).b := by
  induction l generalizing r x S with
  | nil => exact ⟨r, x, hr, hx, le_refl _, fun i h => hS i (h.resolve_right (by simp))⟩
  | cons p t ih =>
    obtain ⟨v, x', h1, h2, h3, h4⟩ := vertex_comp hA nu hQ hr hx p
    obtain ⟨r'', x'', a1, a2, a3, a4⟩ := ih _ x' (setComp_mem hr p v h2) h3 (fun q => S q ∨ q = p) (by
      intro i hi
      unfold setComp
      split_ifs with hc
      · rw [hc]; exact h1
      · exact hS i (hi.resolve_right hc))
    refine ⟨r'', x'', a1, a2, a3.trans h4, fun i hi => a4 i ?_⟩
    rcases hi with h | h
    · exact .inl (.inl h)
    · rcases List.mem_cons.1 h with h | h
      · exact .inl (.inr h)
      · exact .inr h

theorem mem_allPairs {n : ℕ} (p : Fin n × Fin n) : p ∈ allPairs n := by
  unfold allPairs
  simp only [List.mem_flatMap, List.mem_map, List.mem_finRange, true_and]
  exact ⟨p.1, p.2, rfl⟩

/-- C79: in a regular interval system the least value of every component of the solutions is attained, at a system whose
entries are all endpoints. -/
theorem C79_vertex {n : ℕ} (A : Fin n → Fin n → Iv K) (b : Fin n → Iv K) (hA : ∀ i j, (A i j).a ≤ (A i j).b)
    (hb : ∀ i, (b i).a ≤ (b i).b) (hreg : Regular A) (nu : Fin n) :
    ∃ Q Y r x, Minimal A b nu Q Y r x ∧ (∀ i j, Q i j = (A i j).a ∨ Q i j = (A i j).b) ∧
      ∀ i, r i = (b i).a ∨ r i = (b i).b := by
  classical
  let mQ : (Fin n → Fin n → Bool) → Fin n → Fin n → K := fun s i j => if s i j then (A i j).a else (A i j).b
  let mr : (Fin n → Bool) → Fin n → K := fun s i => if s i then (b i).a else (b i).b
  have hmQ : ∀ s, InMat (mQ s) A := fun s i j => by
    dsimp only [mQ]
    split_ifs
    · exact Iv.mem_def.2 ⟨le_refl _, hA i j⟩
    · exact Iv.mem_def.2 ⟨hA i j, le_refl _⟩
  have hmr : ∀ s, InVec (mr s) b := fun s i => by
    dsimp only [mr]
    split_ifs
    · exact Iv.mem_def.2 ⟨le_refl _, hb i⟩
    · exact Iv.mem_def.2 ⟨hb i, le_refl _⟩
  choose Y hY using fun s => hreg (mQ s) (hmQ s)
  obtain ⟨⟨s, t⟩, hmin⟩ := Finite.exists_min fun p : (Fin n → Fin n → Bool) × (Fin n → Bool) => apply (Y p.1) (mr p.2) nu
  refine ⟨mQ s, Y s, mr t, apply (Y s) (mr t), ⟨hmQ s, hmr t, solution_exists (hY s) _, hY s, ?_⟩, ?_, ?_⟩
  · rintro x ⟨Q, hQ, r, hr, hx⟩
    obtain ⟨Q1, x1, a1, a2, a3, a4⟩ := vertex_entries hreg nu r (allPairs n) Q x hQ hx (fun _ => False) (fun _ _ h => h.elim)
    obtain ⟨r2, x2, b1, b2, b3, b4⟩ := vertex_comps hreg nu Q1 a1 (List.finRange n) r x1 hr a2 (fun _ => False)
      (fun _ h => h.elim)
    have e1 : Q1 = mQ fun i j => decide (Q1 i j = (A i j).a) := by
      funext i j
      dsimp only [mQ]
      split_ifs with hc
      · simpa using hc
      · exact (a4 i j (.inr (mem_allPairs _))).resolve_left (by simpa using hc)
    have e2 : r2 = mr fun i => decide (r2 i = (b i).a) := by
      funext i
      dsimp only [mr]
      split_ifs with hc
      · simpa using hc
      · exact (b4 i (.inr (List.mem_finRange i))).resolve_left (by simpa using hc)
    have h3 := hmin (fun i j => decide (Q1 i j = (A i j).a), fun i => decide (r2 i = (b i).a))
    dsimp only at h3
    have e3 := solution_unique (Q := Q1) (by rw [e1]; exact hY _) b2
    rw [← e2, ← e3] at h3
    exact h3.trans (b3.trans a3)
  · intro i j
    dsimp only [mQ]
    split_ifs
    · exact .inl rfl
    · exact .inr rfl
  · intro i
    dsimp only [mr]
    split_ifs
    · exact .inl rfl
    · exact .inr rfl

/-! ## C79: the bounds of PPS -/

/-- The least component is attained at a system where no derivative is zero. -/
def LeastNondegenerate {n : ℕ} (A : Fin n → Fin n → Iv K) (b : Fin n → Iv K) (nu : Fin n) : Prop :=
  ∃ Q Y r x, Minimal A b nu Q Y r x ∧ Nondegenerate nu Y x

/-- The linear solver is exact. -/
def PpsSolveOK {n : ℕ} (solve : (Fin n → Fin n → K) → (Fin n → K) → Except Err (Fin n → K)) : Prop :=
  ∀ M v x, solve M v = .ok x → ∀ i, apply M x i = v i

/-- The full property C79: with an exact inversion routine and an exact linear solver, a box returned by `PPS` for a regular
interval matrix contains every solution of the united solution set. -/
def C79_statement (R : Rnd K) : Prop :=
  ∀ (n : ℕ) (inv : (Fin n → Fin n → K) → Except Err (Fin n → Fin n → K))
    (solve : (Fin n → Fin n → K) → (Fin n → K) → Except Err (Fin n → K)), InvExact inv → PpsSolveOK solve →
    ∀ (tol : K) (fuel : ℕ) (maxiter : ℤ) (A : Fin n → Fin n → Iv K) (b : Fin n → Iv K) (X : List (Iv K)),
      0 ≤ tol → (∀ i j, Ordinary (A i j)) → (∀ i, Ordinary (b i)) → Regular A →
      pps R inv solve tol fuel maxiter A b none = .ok X →
      ∀ x, United A b x → List.Forall₂ (fun Z k => x k ∈ Z) X (List.finRange n)

/-- C79: a value returned by `algo(nu)` is a lower bound of the component `nu` of every solution, for any number of
unknowns and any limit on the passes, if `HBR` and the interval inverse enclose on the subsystems and if the least value
is attained where no derivative is zero. -/
theorem C79_lower_partial {n : ℕ} (P : PpsArg K n) (A : Fin n → Fin n → Iv K) (b : Fin n → Iv K) (H : HelpersSound P A b)
    (hA : ∀ i j, Ordinary (A i j)) (hb : ∀ i, Ordinary (b i)) (hn : LeastNondegenerate A b P.nu) (maxiter : ℤ)
    (invA : Fin n → Fin n → Iv K) (hinv : P.inverse A = .ok invA) (v : K) (h : ppsAlgo P maxiter A invA b = .ok v)
    (x : Fin n → K) (hx : United A b x) : v ≤ x P.nu := by
  obtain ⟨Q, Y, r, x0, M, hd⟩ := hn
  unfold ppsAlgo at h
  split at h
  · cases h
  · rename_i p hp
    cases h
    exact (algo_lower H hA hb M hd maxiter invA hinv p hp).trans (M.min x hx)

theorem ppsBounds_spec {n : ℕ} (f : Fin n → PpsRes K) (is : List (Fin n)) (vs : List K) (h : ppsBounds f is = .ok vs) :
    List.Forall₂ (fun i v => f i = .ok v) is vs := by
  induction is generalizing vs with
  | nil => cases h; exact .nil
  | cons i is ih =>
    unfold ppsBounds at h
    split at h
    · cases h
    rename_i v hv
    split at h
    · cases h
    rename_i ws hws
    cases h
    exact .cons hv (ih ws hws)

theorem ppsPlus_spec {n : ℕ} (R : Rnd K) (A : Fin n → Fin n → Iv K) (b : Fin n → Iv K) (hb : ∀ i, Ordinary (b i)) :
    (∀ i, Ordinary (ppsPlus R b i)) ∧ (∀ i, Ordinary (ppsMinus R b i)) ∧
    ∀ x, United A b x → United A (ppsPlus R b) x ∧ United A (ppsMinus R b) (fun k => -x k) := by
  have h1 : ∀ i, Ordinary (ppsPlus R b i) := fun i => (C05_rmul_encloses R 1 (b i) (hb i)).2.2
  refine ⟨h1, fun i => (C05_rmul_encloses R (-1) _ (h1 i)).2.2, ?_⟩
  rintro x ⟨Q, hQ, r, hr, hx⟩
  have h2 : ∀ i, r i ∈ ppsPlus R b i := fun i => (C05_rmul_encloses R 1 (b i) (hb i)).1 _ ⟨r i, hr i, by ring⟩
  refine ⟨⟨Q, hQ, r, h2, hx⟩, Q, hQ, fun i => -r i, fun i => ?_, fun i => ?_⟩
  · exact (C05_rmul_encloses R (-1) _ (h1 i)).1 _ ⟨r i, h2 i, by ring⟩
  · show apply Q (fun k => -x k) i = -r i
    rw [← hx i, apply, apply, ← Finset.sum_neg_distrib]
    exact Finset.sum_congr rfl fun j _ => by ring

/-- C79: every component returned by `PPS` contains that component of every solution, for any number of unknowns, any
rounding, any tolerance and any limit on the passes, under the conditions of `C79_lower_partial` for both signs. -/
theorem C79_bounds_partial {n : ℕ} (R : Rnd K) (inv : (Fin n → Fin n → K) → Except Err (Fin n → Fin n → K))
    (solve : (Fin n → Fin n → K) → (Fin n → K) → Except Err (Fin n → K)) (tol : K) (fuel : ℕ) (maxiter : ℤ)
    (A : Fin n → Fin n → Iv K) (b : Fin n → Iv K) (hA : ∀ i j, Ordinary (A i j)) (hb : ∀ i, Ordinary (b i))
    (H : ∀ k, HelpersSound (ppsArg R inv solve tol fuel k) A (ppsPlus R b) ∧
      HelpersSound (ppsArg R inv solve tol fuel k) A (ppsMinus R b))
    (nu : Option (Fin n))
    (hn : ∀ k ∈ nu.elim (List.finRange n) fun k => [k],
      LeastNondegenerate A (ppsPlus R b) k ∧ LeastNondegenerate A (ppsMinus R b) k)
    (X : List (Iv K)) (h : pps R inv solve tol fuel maxiter A b nu = .ok X) (x : Fin n → K) (hx : United A b x) :
    List.Forall₂ (fun Z k => x k ∈ Z) X (nu.elim (List.finRange n) fun k => [k]) := by
  obtain ⟨o1, o2, hU⟩ := ppsPlus_spec R A b hb
  obtain ⟨u1, u2⟩ := hU x hx
  unfold pps at h
  split_ifs at h
  split at h
  · cases h
  rename_i invA hinv
  dsimp only at h
  generalize (nu.elim (List.finRange n) fun k => [k]) = idx at h hn ⊢
  split at h
  · cases h
  rename_i lo hlo
  split at h
  · cases h
  rename_i hi hhi
  cases h
  have f1 := ppsBounds_spec _ _ _ hlo
  have f2 := ppsBounds_spec _ _ _ hhi
  clear hlo hhi
  induction idx generalizing lo hi with
  | nil => cases f1; cases f2; exact .nil
  | cons k t ih =>
    cases f1 with
    | cons a1 a2 =>
      cases f2 with
      | cons b1 b2 =>
        refine .cons ?_ (ih (fun j hj => hn j (List.mem_cons_of_mem _ hj)) _ _ a2 b2)
        have l := C79_lower_partial (ppsArg R inv solve tol fuel k) A _ (H k).1 hA o1 (hn k List.mem_cons_self).1 maxiter invA
          hinv _ a1 x u1
        have u := C79_lower_partial (ppsArg R inv solve tol fuel k) A _ (H k).2 hA o2 (hn k List.mem_cons_self).2 maxiter invA
          hinv _ b1 _ u2
        simp only [ppsArg] at l u
        exact (mkIv_mem _ _ _).2 ⟨l, le_neg_of_le_neg u⟩

theorem ppsInverse_spec {n : ℕ} (R : Rnd K) (A : Fin n → Fin n → Iv K) (Z : Fin n → Fin n → Iv K) (h : ppsInverse R A = .ok Z)
    (k : Fin n) : ppsColumn R A k = .ok fun i => Z i k := by
  unfold ppsInverse at h
  split at h
  · cases h
  · rename_i hn
    cases h
    rw [List.findSome?_eq_none_iff] at hn
    have := hn k (List.mem_finRange k)
    cases hf : ppsColumn R A k with
    | error e => rw [hf] at this; cases this
    | ok v => simp only [hf, okVec]

/-- For at most two unknowns the helpers are sound on all subsystems. -/
theorem helpers_two {n : ℕ} (hn : n ≤ 2) (R : Rnd K) (inv : (Fin n → Fin n → K) → Except Err (Fin n → Fin n → K))
    (hinv : InvExact inv) (solve : (Fin n → Fin n → K) → (Fin n → K) → Except Err (Fin n → K)) (tol : K) (fuel : ℕ)
    (A : Fin n → Fin n → Iv K) (b : Fin n → Iv K) (k : Fin n) : HelpersSound (ppsArg R inv solve tol fuel k) A b := by
  constructor
  · intro Q r X hs h x hx
    exact C44_hbr_two_partial R hn inv hinv Q r X (fun i j => (hs.1 i j).1) (fun i => (hs.2 i).1) h x hx
  · intro Q Z hs h
    have hc := ppsInverse_spec R Q Z h
    have ho : ∀ k i : Fin n, Ordinary (if i = k then (pointIv 1 : Iv K) else zeroIv) := by
      intro k i
      split_ifs
      · exact ⟨rfl, le_refl _⟩
      · exact ⟨rfl, le_refl _⟩
    refine ⟨fun i j => C37_gauss_ordinary R Q _ _ (fun i j => (hs i j).1) (ho j) (hc j) i, ?_⟩
    intro Q' Y' hQ' hY' i j
    refine C37_gauss_partial R hn Q _ _ (fun i j => (hs i j).1) (ho j) (hc j) (fun i => Y' i j)
      ⟨Q', hQ', fun i => if i = j then 1 else 0, fun i => ?_, fun i => hY' i j⟩ i
    dsimp only
    split_ifs
    · exact (mem_pointIv _ _).2 rfl
    · exact Iv.mem_def.2 ⟨le_refl _, le_refl _⟩

/-- C79 (partial): for at most two unknowns, any rounding of the interval operations and an exact inversion routine,
the box returned by `PPS` contains every solution, if the extreme values of the components are attained where no
derivative is zero.  Missing from `C79_statement`: zero derivatives, where it is false (`C79_false`), and three or more
unknowns, where `Gauss` is not an enclosure (see `C79_bounds_partial`). -/
theorem C79_partial {n : ℕ} (hn : n ≤ 2) (R : Rnd K) (inv : (Fin n → Fin n → K) → Except Err (Fin n → Fin n → K))
    (hinv : InvExact inv) (solve : (Fin n → Fin n → K) → (Fin n → K) → Except Err (Fin n → K)) (tol : K) (fuel : ℕ)
    (maxiter : ℤ) (A : Fin n → Fin n → Iv K) (b : Fin n → Iv K) (hA : ∀ i j, Ordinary (A i j)) (hb : ∀ i, Ordinary (b i))
    (hl : ∀ k, LeastNondegenerate A (ppsPlus R b) k ∧ LeastNondegenerate A (ppsMinus R b) k)
    (X : List (Iv K)) (h : pps R inv solve tol fuel maxiter A b none = .ok X) (x : Fin n → K) (hx : United A b x) :
    List.Forall₂ (fun Z k => x k ∈ Z) X (List.finRange n) :=
  C79_bounds_partial R inv solve tol fuel maxiter A b hA hb
    (fun k => ⟨helpers_two hn R inv hinv solve tol fuel A _ k, helpers_two hn R inv hinv solve tol fuel A _ k⟩) none
    (fun k _ => hl k) X h x hx

/-- A sufficient condition: the matrix is regular, and no point system has a zero in its inverse or in its solution. -/
theorem leastNondegenerate_of_regular {n : ℕ} (A : Fin n → Fin n → Iv K) (b : Fin n → Iv K) (hA : ∀ i j, Ordinary (A i j))
    (hb : ∀ i, Ordinary (b i)) (hreg : Regular A) (nu : Fin n)
    (hz : ∀ Q Y r x, InMat Q A → InVec r b → IsInverse Q Y → (∀ i, apply Q x i = r i) → Nondegenerate nu Y x) :
    LeastNondegenerate A b nu := by
  obtain ⟨Q, Y, r, x, M, -, -⟩ := C79_vertex A b (fun i j => (hA i j).2) (fun i => (hb i).2) hreg nu
  exact ⟨Q, Y, r, x, M, hz Q Y r x M.hQ M.hr M.inv M.sol⟩

/-! ### Two unknowns: the inverse in closed form -/

/-- The inverse of a matrix with two rows, -/
def ppsInv2 (M : Fin 2 → Fin 2 → ℚ) : Except Err (Fin 2 → Fin 2 → ℚ) :=
  let d := M 0 0 * M 1 1 - M 0 1 * M 1 0
  if d = 0 then .error .linAlgError else .ok ![![M 1 1 / d, -M 0 1 / d], ![-M 1 0 / d, M 0 0 / d]]

/-- the solution of a system with two unknowns, -/
def ppsSolve2 (M : Fin 2 → Fin 2 → ℚ) (v : Fin 2 → ℚ) : Except Err (Fin 2 → ℚ) :=
  match ppsInv2 M with
  | .error e => .error e
  | .ok B => .ok fun i => B i 0 * v 0 + B i 1 * v 1

/-- and the endpoints of a result. -/
def ppsEnds : PpsRes (List (Iv ℚ)) → Option (List (ℚ × ℚ))
  | .ok v => some (v.map fun X => (X.a, X.b))
  | .error _ => none

theorem ppsInv2_exact : InvExact ppsInv2 := by
  intro M B h
  unfold ppsInv2 at h
  dsimp only at h
  split_ifs at h with hd
  cases h
  intro i j
  rw [Fin.sum_univ_two]
  fin_cases i <;> fin_cases j <;> simp
  · field_simp; ring
  · field_simp; ring
  · field_simp; ring
  · rw [← mul_div_assoc, ← mul_div_assoc, ← add_div, div_eq_one_iff_eq hd]; ring

theorem ppsSolve2_ok : PpsSolveOK ppsSolve2 := by
  intro M v x h i
  unfold ppsSolve2 at h
  split at h
  · cases h
  rename_i B hB
  cases h
  have := solution_exists (ppsInv2_exact M B hB) v i
  simpa only [apply, Fin.sum_univ_two] using this

/-- A diagonal system: `[1, 2] x = [-1, 1]`, `y = 1`. -/
def ppsZeroA : Fin 2 → Fin 2 → Iv ℚ := ![![⟨.classical, 1, 2⟩, ⟨.classical, 0, 0⟩], ![⟨.classical, 0, 0⟩, ⟨.classical, 1, 1⟩]]

/-- See `ppsZeroA`. -/
def ppsZeroB : Fin 2 → Iv ℚ := ![⟨.classical, -1, 1⟩, ⟨.classical, 1, 1⟩]

theorem ppsZero_regular : Regular ppsZeroA := by
  intro Q hQ
  have q00 := Iv.mem_def.1 (hQ 0 0)
  have q01 := Iv.mem_def.1 (hQ 0 1)
  have q11 := Iv.mem_def.1 (hQ 1 1)
  simp [ppsZeroA] at q00 q01 q11
  refine ⟨_, ppsInv2_exact Q _ (if_neg ?_)⟩
  rw [le_antisymm q01.2 q01.1, le_antisymm q11.2 q11.1]
  linarith

theorem ppsZero_solution : United ppsZeroA ppsZeroB ![-1, 1] :=
  ⟨![![1, 0], ![0, 1]], fun i j => by rw [Iv.mem_def]; revert i j; decide +kernel, ![-1, 1],
    fun i => by rw [Iv.mem_def]; revert i; decide +kernel, fun i => by unfold apply; revert i; decide +kernel⟩

/-- C79 is false of the code, even in exact arithmetic: for the diagonal system `[1, 2] x = [-1, 1]`, `y = 1` the result is
`[-1/2, 1] x [1, 1]`, but `(-1, 1)` is a solution.  A zero derivative is tagged as negative and positive, and the tags
of the other entries are derived from it. -/
theorem C79_false : ¬ C79_statement (Rnd.exact : Rnd ℚ) := by
  intro h
  have h0 : ppsEnds (pps Rnd.exact ppsInv2 ppsSolve2 (1/1000) 20 2000 ppsZeroA ppsZeroB none) = some [(-1/2, 1), (1, 1)] := by
    decide +kernel
  cases hX : pps Rnd.exact ppsInv2 ppsSolve2 (1/1000) 20 2000 ppsZeroA ppsZeroB none with
  | error e => rw [hX] at h0; cases h0
  | ok X =>
    rw [hX, ppsEnds, Option.some.injEq] at h0
    have := h 2 ppsInv2 ppsSolve2 ppsInv2_exact ppsSolve2_ok (1/1000) 20 2000 ppsZeroA ppsZeroB X (by norm_num)
      (by unfold Ordinary; decide +kernel) (by unfold Ordinary; decide +kernel) ppsZero_regular hX _ ppsZero_solution
    cases X with
    | nil => cases h0
    | cons X0 t =>
      rw [List.map_cons, List.cons.injEq, Prod.mk.injEq] at h0
      rw [show List.finRange 2 = [0, 1] from rfl] at this
      cases this with
      | cons h1 h2 =>
        have := (Iv.mem_def.1 h1).1
        rw [h0.1.1] at this
        norm_num at this

end IntvalPy
