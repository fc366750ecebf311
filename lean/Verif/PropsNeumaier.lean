import Verif.PropsGauss
import Mathlib.Algebra.Order.BigOperators.Group.Finset

/-!
# Neumaier's inner estimate (C45)
-/

set_option autoImplicit false
set_option linter.unusedSectionVars false

namespace IntvalPy
open Spec

variable {K : Type*} [Field K] [LinearOrder K] [IsStrictOrderedRing K]

/-- The full property C45: every point of the returned box is a tolerable solution when the centre is. -/
def C45_statement (K : Type*) [Field K] [LinearOrder K] [IsStrictOrderedRing K] : Prop :=
  ∀ (n m : ℕ) (A : Fin n → Fin m → Iv K) (b : Fin n → Iv K) (y : Fin m → K) (w : Option (Fin m → K))
    (Z : Fin m → Iv K), (∀ i j, Ordinary (A i j)) → (∀ i, Ordinary (b i)) → Tolerable A b y →
    neumaier A b y w = .ok (List.ofFn Z) → ∀ x, InVec x Z → Tolerable A b x

theorem npBroadcast2_spec {α β : Type*} (xs : List α) (ys : List β) (l : List (α × β))
    (h : npBroadcast2 xs ys = .ok l) : (xs.length = ys.length ∧ l = xs.zip ys) ∨
      (∃ x, xs = [x] ∧ l = ys.map fun y => (x, y)) ∨ (∃ y, ys = [y] ∧ l = xs.map fun x => (x, y)) := by
  unfold npBroadcast2 at h
  split_ifs at h with h1
  · cases h; exact .inl ⟨h1, rfl⟩
  · split at h
    · rename_i x; cases h; exact .inr (.inl ⟨x, rfl, rfl⟩)
    · rename_i y _; cases h; exact .inr (.inr ⟨y, rfl, rfl⟩)
    · cases h

theorem rmul_sym (c : K) : Iv.rmul Rnd.exact c ⟨.classical, -1, 1⟩ = ⟨.classical, -|c|, |c|⟩ := by
  simp only [Iv.rmul, Rnd.exact_dn, Rnd.exact_up, id, mul_neg, mul_one]
  rcases le_total 0 c with h | h
  · rw [abs_of_nonneg h, min_eq_left (by linarith), max_eq_right (by linarith)]
  · rw [abs_of_nonpos h, min_eq_right (by linarith), max_eq_left (by linarith), neg_neg]

/-- One row: the points within `r_i` of a tolerable `y` keep the row inside `b_i`, and `r_i ≥ 0`. -/
theorem neumaierR_spec {m : ℕ} (row : Fin m → Iv K) (b : Iv K) (y : Fin m → K) (hA : ∀ j, Ordinary (row j))
    (hb : Ordinary b) (hS : 0 < ∑ j, (row j).mag)
    (hy : ∀ A' : Fin m → K, (∀ j, A' j ∈ row j) → ∑ j, A' j * y j ∈ b) :
    0 ≤ neumaierR row b y ∧ ∀ x : Fin m → K, (∀ j, |x j - y j| ≤ neumaierR row b y) →
      ∀ A' : Fin m → K, (∀ j, A' j ∈ row j) → ∑ j, A' j * x j ∈ b := by
  have hm : 0 < m := by
    rcases Nat.eq_zero_or_pos m with rfl | h
    · simp at hS
    · exact h
  obtain ⟨Z, hZ, _, ha, hb'⟩ := dotIN_exact row y hm hA
  obtain ⟨Z', hZ', hr⟩ := C26_matvec_range row y hm hA
  rw [hZ] at hZ'
  cases hZ'
  obtain ⟨Al, hAl, el⟩ := hr.2.1
  obtain ⟨Au, hAu, eu⟩ := hr.2.2
  have hl := hy Al hAl
  have hu := hy Au hAu
  rw [← el] at hl
  rw [← eu] at hu
  obtain ⟨_, _, _, _, _, cm1, cm2, _, _⟩ := C20_characteristics b hb
  set md := b.mid Rnd.exact with hmd
  set rd := b.rad Rnd.exact with hrd
  have hmag : (Iv.ufuncSub Rnd.exact md (dotEntry (dotIN Rnd.exact (List.ofFn row) (List.ofFn y)))).mag
      = max |md - Z.b| |md - Z.a| := by
    simp only [hZ, dotEntry, Option.getD_some, Iv.ufuncSub, Iv.radd, Iv.neg, Iv.mag, Rnd.exact_dn, Rnd.exact_up, id,
      sub_eq_add_neg, add_comm]
  set g := max |md - Z.b| |md - Z.a| with hg
  have hgr : g ≤ rd := by
    rw [Iv.mem_def] at hl hu
    refine max_le ?_ ?_ <;> rw [abs_le] <;> constructor <;> linarith [hl.1, hl.2, hu.1, hu.2]
  have er : neumaierR row b y = (rd - g) / ∑ j, (row j).mag := by rw [neumaierR, hmag]
  rw [er]
  refine ⟨div_nonneg (by linarith) hS.le, fun x hx A' hA' => ?_⟩
  have h1 : |∑ j, A' j * (x j - y j)| ≤ rd - g := by
    refine (Finset.abs_sum_le_sum_abs _ _).trans ?_
    have : ∀ j, |A' j * (x j - y j)| ≤ (row j).mag * ((rd - g) / ∑ j, (row j).mag) := fun j => by
      rw [abs_mul]
      have := ((C20_characteristics (row j) (hA j)).1 _ (hA' j)).2
      exact mul_le_mul this (hx j) (abs_nonneg _) ((abs_nonneg _).trans this)
    refine (Finset.sum_le_sum fun j _ => this j).trans ?_
    rw [← Finset.sum_mul, mul_div_cancel₀ _ hS.ne']
  have h2 : ∑ j, A' j * x j = ∑ j, A' j * y j + ∑ j, A' j * (x j - y j) := by
    rw [← Finset.sum_add_distrib]
    exact Finset.sum_congr rfl fun j _ => by ring
  have h3 := hr.1 _ ⟨A', hA', rfl⟩
  have h4 : |md - ∑ j, A' j * y j| ≤ g := by
    rw [Iv.mem_def] at h3
    have ga := le_max_left |md - Z.b| |md - Z.a|
    have gb := le_max_right |md - Z.b| |md - Z.a|
    rw [← hg, abs_le] at ga gb
    rw [abs_le]
    constructor <;> linarith [h3.1, h3.2, ga.1, ga.2, gb.1, gb.2]
  rw [abs_le] at h1 h4
  rw [h2, Iv.mem_def]
  constructor <;> linarith [h1.1, h1.2, h4.1, h4.2]

theorem mag_nonneg' (X : Iv K) : 0 ≤ X.mag := by
  unfold Iv.mag
  exact le_max_of_le_left (abs_nonneg _)

/-- The half-widths of the returned components are the numbers `|r_i|`. -/
theorem neumaier_box {n m : ℕ} (A : Fin n → Fin m → Iv K) (b : Fin n → Iv K) (y : Fin m → K) (Z : Fin m → Iv K)
    (h : neumaier A b y none = .ok (List.ofFn Z)) :
    (∀ i, 0 < ∑ j, (A i j).mag) ∧ ∀ i, ∃ k : Fin m, Z k = ⟨.classical, y k - |neumaierR (A i) (b i) y|,
      y k + |neumaierR (A i) (b i) y|⟩ := by
  unfold neumaier at h
  dsimp only at h
  split_ifs at h with h0
  have hS : ∀ i, 0 < ∑ j, (A i j).mag := by
    intro i
    refine lt_of_le_of_ne (Finset.sum_nonneg fun j _ => mag_nonneg' _) fun e => h0 ?_
    rw [List.any_eq_true]
    exact ⟨i, List.mem_finRange i, by simpa using e.symm⟩
  refine ⟨hS, fun i => ?_⟩
  have hm : 0 < m := by
    rcases Nat.eq_zero_or_pos m with rfl | h
    · have := hS i; simp at this
    · exact h
  set r : Fin n → K := fun i => neumaierR (A i) (b i) y with hr
  have conv : ∀ (k : Fin m) (c : K), Iv.radd Rnd.exact (y k) (Iv.rmul Rnd.exact (1 * c) ⟨.classical, -1, 1⟩)
      = ⟨.classical, y k - |c|, y k + |c|⟩ := by
    intro k c
    rw [one_mul, rmul_sym]
    simp only [Iv.radd, Rnd.exact_dn, Rnd.exact_up, id]
    congr 1 <;> ring
  cases hp : npBroadcast2 (List.ofFn fun _ : Fin m => (1 : K)) (List.ofFn r) with
  | error e => rw [hp] at h; cases h
  | ok prods =>
    rw [hp] at h
    dsimp only at h
    cases hq : npBroadcast2 (List.ofFn y) (prods.map fun t => Iv.rmul Rnd.exact (t.1 * t.2) ⟨.classical, -1, 1⟩) with
    | error e => rw [hq] at h; cases h
    | ok l =>
      rw [hq] at h
      simp only [Except.map, Except.ok.injEq] at h
      have hlen : l.length = m := by
        have := congrArg List.length h
        simpa using this
      -- the list of factors has length `m`
      rcases npBroadcast2_spec _ _ _ hp with ⟨e1, e2⟩ | ⟨x, e1, e2⟩ | ⟨x, e1, e2⟩
      · rw [List.length_ofFn, List.length_ofFn] at e1
        subst e1
        have e3 : prods = List.ofFn fun k => ((1 : K), r k) := by rw [e2, List.zip, zipWith_ofFn]
        rw [e3, List.map_ofFn] at hq
        refine ⟨i, ?_⟩
        have e4 : l = List.ofFn fun k => (y k, Iv.rmul Rnd.exact (1 * r k) ⟨.classical, -1, 1⟩) := by
          rcases npBroadcast2_spec _ _ _ hq with ⟨_, e⟩ | ⟨z, e5, e⟩ | ⟨z, e5, e⟩
          · rw [e, List.zip, zipWith_ofFn]; rfl
          · have hm1 : m = 1 := by have := congrArg List.length e5; simpa using this
            subst hm1
            rw [e]
            simp only [List.ofFn_succ, List.ofFn_zero, List.cons.injEq, and_true] at e5
            simp [List.ofFn_succ, ← e5]
          · have hm1 : m = 1 := by have := congrArg List.length e5; simpa using this
            subst hm1
            rw [e]
            simp only [List.ofFn_succ, List.ofFn_zero, List.cons.injEq, and_true] at e5
            simp [List.ofFn_succ, ← e5]
        rw [e4, List.map_ofFn] at h
        have := List.ofFn_injective h
        rw [← conv i (r i), ← congrFun this i]
        rfl
      · have hm1 : m = 1 := by have := congrArg List.length e1; simpa using this
        subst hm1
        have e3 : prods.length = n := by rw [e2]; simp
        have e6 : n = 1 := by
          rcases npBroadcast2_spec _ _ _ hq with ⟨e5, _⟩ | ⟨z, _, e5⟩ | ⟨z, e5, _⟩
          · simpa [e3] using e5.symm
          · rw [e5] at hlen; simpa [e3] using hlen
          · have := congrArg List.length e5; simpa [e3] using this
        subst e6
        refine ⟨0, ?_⟩
        obtain rfl := Subsingleton.elim i 0
        have e7 : x = 1 := by simpa [List.ofFn_succ] using e1.symm
        have e8 : prods = [(1, r 0)] := by rw [e2, e7]; simp [List.ofFn_succ]
        rw [e8] at hq
        have e9 : l = [(y 0, Iv.rmul Rnd.exact (1 * r 0) ⟨.classical, -1, 1⟩)] := by
          simp [npBroadcast2, List.ofFn_succ] at hq
          simpa using hq.symm
        rw [e9] at h
        rw [← conv 0 (r 0)]
        simpa [List.ofFn_succ] using h.symm
      · have hn1 : n = 1 := by have := congrArg List.length e1; simpa using this
        subst hn1
        obtain rfl := Subsingleton.elim i 0
        have e7 : x = r 0 := by simpa [List.ofFn_succ] using e1.symm
        have e3 : prods = List.ofFn fun _ : Fin m => ((1 : K), r 0) := by
          rw [e2, e7, List.map_ofFn]; rfl
        rw [e3, List.map_ofFn] at hq
        refine ⟨⟨0, hm⟩, ?_⟩
        have e4 : l = List.ofFn fun k => (y k, Iv.rmul Rnd.exact (1 * r 0) ⟨.classical, -1, 1⟩) := by
          rcases npBroadcast2_spec _ _ _ hq with ⟨_, e⟩ | ⟨z, e5, e⟩ | ⟨z, e5, e⟩
          · rw [e, List.zip, zipWith_ofFn]; rfl
          · have hm1 : m = 1 := by have := congrArg List.length e5; simpa using this
            subst hm1
            rw [e]
            simp only [List.ofFn_succ, List.ofFn_zero, List.cons.injEq, and_true] at e5
            simp [List.ofFn_succ, ← e5]
          · have hm1 : m = 1 := by have := congrArg List.length e5; simpa using this
            subst hm1
            rw [e]
            simp only [List.ofFn_succ, List.ofFn_zero, List.cons.injEq, and_true] at e5
            simp [List.ofFn_succ, ← e5]
        rw [e4, List.map_ofFn] at h
        have := List.ofFn_injective h
        rw [← conv ⟨0, hm⟩ (r 0), ← congrFun this ⟨0, hm⟩]
        rfl

/-- C45 (no weights, any shape the function accepts): the cube around `y` whose half-width is the smallest half-width
of the returned components consists of tolerable solutions; in particular the whole box does if it is a cube (as it is
for a single equation).  Missing from `C45_statement`: components of different widths, and weights (both false). -/
theorem C45_neumaier_partial {n m : ℕ} (A : Fin n → Fin m → Iv K) (b : Fin n → Iv K) (y : Fin m → K) (Z : Fin m → Iv K)
    (hA : ∀ i j, Ordinary (A i j)) (hb : ∀ i, Ordinary (b i)) (hy : Tolerable A b y)
    (h : neumaier A b y none = .ok (List.ofFn Z)) (x : Fin m → K)
    (hx : ∀ j k, |x j - y j| ≤ ((Z k).b - (Z k).a) / 2) : Tolerable A b x := by
  obtain ⟨hS, hZ⟩ := neumaier_box A b y Z h
  intro A' hA' i
  obtain ⟨h0, h1⟩ := neumaierR_spec (A i) (b i) y (hA i) (hb i) (hS i) (fun a ha => by
    have := hy (fun i' j => if i' = i then a j else (A i' j).a) (fun i' j => by
      by_cases e : i' = i
      · subst e; simpa using ha j
      · simp only [if_neg e]; exact ⟨le_refl _, (hA i' j).2⟩) i
    simpa [apply] using this)
  refine h1 x (fun j => ?_) (A' i) (hA' i)
  obtain ⟨k, hk⟩ := hZ i
  have := hx j k
  rw [hk, abs_of_nonneg h0] at this
  linarith

/-- C45 (boxes that are cubes): every point of the returned box is a tolerable solution. -/
theorem C45_neumaier_cube_partial {n m : ℕ} (A : Fin n → Fin m → Iv K) (b : Fin n → Iv K) (y : Fin m → K)
    (Z : Fin m → Iv K) (hA : ∀ i j, Ordinary (A i j)) (hb : ∀ i, Ordinary (b i)) (hy : Tolerable A b y)
    (h : neumaier A b y none = .ok (List.ofFn Z)) (hc : ∀ j, ((Z j).a + (Z j).b) / 2 = y j)
    (hw : ∀ j k, (Z j).b - (Z j).a = (Z k).b - (Z k).a) (x : Fin m → K) (hx : InVec x Z) : Tolerable A b x := by
  refine C45_neumaier_partial A b y Z hA hb hy h x fun j k => ?_
  have h1 := hx j
  rw [Iv.mem_def] at h1
  rw [← hw j k, abs_le]
  have := hc j
  constructor <;> linarith [h1.1, h1.2]

/-- What the number `r_i` of one row stands for: `r_i` times the sum of the magnitudes is the distance left between the
row at `y` and the ends of `b_i`. -/
theorem neumaierR_slack {m : ℕ} (row : Fin m → Iv K) (b : Iv K) (y : Fin m → K) (hA : ∀ j, Ordinary (row j))
    (hb : Ordinary b) (hS : 0 < ∑ j, (row j).mag) :
    (∀ A' : Fin m → K, (∀ j, A' j ∈ row j) →
      |b.mid Rnd.exact - ∑ j, A' j * y j| ≤ b.rad Rnd.exact - neumaierR row b y * ∑ j, (row j).mag) ∧
    ((∀ j, (row j).a = (row j).b) → |b.mid Rnd.exact - ∑ j, (row j).a * y j| =
      b.rad Rnd.exact - neumaierR row b y * ∑ j, (row j).mag) := by
  have hm : 0 < m := by
    rcases Nat.eq_zero_or_pos m with rfl | h
    · simp at hS
    · exact h
  obtain ⟨Z, hZ, hr⟩ := C26_matvec_range row y hm hA
  set md := b.mid Rnd.exact with hmd
  set rd := b.rad Rnd.exact with hrd
  have hmag : (Iv.ufuncSub Rnd.exact md (dotEntry (dotIN Rnd.exact (List.ofFn row) (List.ofFn y)))).mag
      = max |md - Z.b| |md - Z.a| := by
    simp only [hZ, dotEntry, Option.getD_some, Iv.ufuncSub, Iv.radd, Iv.neg, Iv.mag, Rnd.exact_dn, Rnd.exact_up, id,
      sub_eq_add_neg, add_comm]
  set g := max |md - Z.b| |md - Z.a| with hg
  have er : neumaierR row b y * ∑ j, (row j).mag = rd - g := by
    rw [neumaierR, hmag, div_mul_cancel₀ _ hS.ne']
  rw [er, sub_sub_cancel]
  have ga := le_max_left |md - Z.b| |md - Z.a|
  have gb := le_max_right |md - Z.b| |md - Z.a|
  refine ⟨fun A' hA' => ?_, fun hp => ?_⟩
  · have h3 := hr.1 _ ⟨A', hA', rfl⟩
    rw [Iv.mem_def] at h3
    rw [← hg, abs_le] at ga gb
    rw [abs_le]
    constructor <;> linarith [h3.1, h3.2, ga.1, ga.2, gb.1, gb.2]
  · have hone : ∀ s, (∃ A' : Fin m → K, (∀ j, A' j ∈ row j) ∧ s = ∑ j, A' j * y j) → s = ∑ j, (row j).a * y j := by
      rintro s ⟨A', hA', rfl⟩
      refine Finset.sum_congr rfl fun j _ => ?_
      have := hA' j
      rw [Iv.mem_def, ← hp j] at this
      rw [le_antisymm this.2 this.1]
    rw [hg, hone _ hr.2.1, hone _ hr.2.2, max_self]

/-- The box returned for a square matrix without weights. -/
theorem neumaier_square {n : ℕ} (A : Fin n → Fin n → Iv K) (b : Fin n → Iv K) (y : Fin n → K) (Z : Fin n → Iv K)
    (h : neumaier A b y none = .ok (List.ofFn Z)) :
    (∀ i, 0 < ∑ j, (A i j).mag) ∧ ∀ i, Z i = ⟨.classical, y i - |neumaierR (A i) (b i) y|,
      y i + |neumaierR (A i) (b i) y|⟩ := by
  refine ⟨(neumaier_box A b y Z h).1, fun i => ?_⟩
  unfold neumaier at h
  dsimp only at h
  split_ifs at h with h0
  have hb2 : ∀ {α β : Type _} (xs : List α) (ys : List β), xs.length = ys.length → npBroadcast2 xs ys = .ok (xs.zip ys) :=
    fun xs ys e => by unfold npBroadcast2; rw [if_pos e]
  rw [hb2 _ _ (by simp)] at h
  dsimp only at h
  rw [hb2 _ _ (by simp)] at h
  simp only [Except.map, Except.ok.injEq, List.zip, zipWith_ofFn, List.map_ofFn] at h
  have := congrFun (List.ofFn_injective h) i
  rw [← this]
  show Iv.radd Rnd.exact (y i) (Iv.rmul Rnd.exact (1 * neumaierR (A i) (b i) y) ⟨.classical, -1, 1⟩) = _
  rw [one_mul, rmul_sym]
  simp only [Iv.radd, Rnd.exact_dn, Rnd.exact_up, id]
  congr 1 <;> ring

/-- A row of a matrix through a point of it. -/
theorem tolerable_row {n m : ℕ} {A : Fin n → Fin m → Iv K} {b : Fin n → Iv K} {y : Fin m → K}
    (hA : ∀ i j, Ordinary (A i j)) (hy : Tolerable A b y) (i : Fin n) (a : Fin m → K) (ha : ∀ j, a j ∈ A i j) :
    ∑ j, a j * y j ∈ b i := by
  have := hy (fun i' j => if i' = i then a j else (A i' j).a) (fun i' j => by
    by_cases e : i' = i
    · subst e; simpa using ha j
    · simp only [if_neg e]; exact ⟨le_refl _, (hA i' j).2⟩) i
  simpa [apply] using this

/-- C45 (square matrix, no weights, components of different widths): the whole box consists of tolerable solutions
when in every row the mean of the half-widths, weighted by the magnitudes of the entries of the row, is at most the
half-width of the component with the number of the row. -/
theorem C45_mean_partial {n : ℕ} (A : Fin n → Fin n → Iv K) (b : Fin n → Iv K) (y : Fin n → K) (Z : Fin n → Iv K)
    (hA : ∀ i j, Ordinary (A i j)) (hb : ∀ i, Ordinary (b i)) (hy : Tolerable A b y)
    (h : neumaier A b y none = .ok (List.ofFn Z))
    (hw : ∀ i, ∑ j, (A i j).mag * (((Z j).b - (Z j).a) / 2) ≤ (∑ j, (A i j).mag) * (((Z i).b - (Z i).a) / 2))
    (x : Fin n → K) (hx : InVec x Z) : Tolerable A b x := by
  obtain ⟨hS, hZ⟩ := neumaier_square A b y Z h
  intro A' hA' i
  have h0 := (neumaierR_spec (A i) (b i) y (hA i) (hb i) (hS i) (tolerable_row hA hy i)).1
  have h1 := (neumaierR_slack (A i) (b i) y (hA i) (hb i) (hS i)).1 (A' i) (hA' i)
  have hd : ∀ j, |x j - y j| ≤ ((Z j).b - (Z j).a) / 2 := fun j => by
    have := hx j
    rw [Iv.mem_def, hZ j] at this
    rw [hZ j, abs_le]
    constructor <;> linarith [this.1, this.2]
  have h2 : |∑ j, A' i j * (x j - y j)| ≤ ∑ j, (A i j).mag * (((Z j).b - (Z j).a) / 2) := by
    refine (Finset.abs_sum_le_sum_abs _ _).trans (Finset.sum_le_sum fun j _ => ?_)
    rw [abs_mul]
    have := ((C20_characteristics (A i j) (hA i j)).1 _ (hA' i j)).2
    exact mul_le_mul this (hd j) (abs_nonneg _) ((abs_nonneg _).trans this)
  have h3 := h2.trans (hw i)
  have e : ((Z i).b - (Z i).a) / 2 = neumaierR (A i) (b i) y := by
    rw [hZ i, abs_of_nonneg h0]; ring
  rw [e, mul_comm] at h3
  obtain ⟨_, _, _, _, _, cm1, cm2, _, _⟩ := C20_characteristics (b i) (hb i)
  have h4 : apply A' x i = ∑ j, A' i j * y j + ∑ j, A' i j * (x j - y j) := by
    rw [← Finset.sum_add_distrib]
    exact Finset.sum_congr rfl fun j _ => by ring
  rw [abs_le] at h1 h3
  rw [h4, Iv.mem_def]
  constructor <;> linarith [h1.1, h1.2, h3.1, h3.2]

/-- C45 (square point matrix): the condition of `C45_mean_partial` is necessary as well. -/
theorem C45_point_iff_partial {n : ℕ} (A : Fin n → Fin n → Iv K) (b : Fin n → Iv K) (y : Fin n → K) (Z : Fin n → Iv K)
    (hA : ∀ i j, Ordinary (A i j)) (hp : ∀ i j, (A i j).a = (A i j).b) (hb : ∀ i, Ordinary (b i))
    (hy : Tolerable A b y) (h : neumaier A b y none = .ok (List.ofFn Z)) :
    (∀ x, InVec x Z → Tolerable A b x) ↔
    ∀ i, ∑ j, (A i j).mag * (((Z j).b - (Z j).a) / 2) ≤ (∑ j, (A i j).mag) * (((Z i).b - (Z i).a) / 2) := by
  refine ⟨fun ht i => ?_, fun hw => C45_mean_partial A b y Z hA hb hy h hw⟩
  obtain ⟨hS, hZ⟩ := neumaier_square A b y Z h
  have h0 := (neumaierR_spec (A i) (b i) y (hA i) (hb i) (hS i) (tolerable_row hA hy i)).1
  have h1 := (neumaierR_slack (A i) (b i) y (hA i) (hb i) (hS i)).2 (hp i)
  have e : ((Z i).b - (Z i).a) / 2 = neumaierR (A i) (b i) y := by
    rw [hZ i, abs_of_nonneg h0]; ring
  have ew : ∀ j, ((Z j).b - (Z j).a) / 2 = |neumaierR (A j) (b j) y| := fun j => by rw [hZ j]; ring
  rw [e, mul_comm (∑ j, (A i j).mag)]
  obtain ⟨_, _, _, _, _, cm1, cm2, _, _⟩ := C20_characteristics (b i) (hb i)
  have emag : ∀ j, (A i j).mag = |(A i j).a| := fun j => by rw [Iv.mag, ← hp i j, max_self]
  -- the corner of the box farthest from the middle of `b_i`, in the direction `t`
  have corner : ∀ t : K, |t| = 1 → ∑ j, (A i j).a * y j + t * ∑ j, (A i j).mag * (((Z j).b - (Z j).a) / 2) ∈ b i := by
    intro t ht1
    let x : Fin n → K := fun j => y j + t * (if 0 ≤ (A i j).a then ((Z j).b - (Z j).a) / 2 else -(((Z j).b - (Z j).a) / 2))
    have hx : InVec x Z := fun j => by
      have hj := abs_nonneg (neumaierR (A j) (b j) y)
      have ha : |t * (if 0 ≤ (A i j).a then ((Z j).b - (Z j).a) / 2 else -(((Z j).b - (Z j).a) / 2))| ≤
          |neumaierR (A j) (b j) y| := by
        rw [abs_mul, ht1, one_mul, ew j]
        split_ifs
        · rw [abs_abs]
        · rw [abs_neg, abs_abs]
      rw [abs_le] at ha
      rw [Iv.mem_def]
      have ea : (Z j).a = y j - |neumaierR (A j) (b j) y| := by rw [hZ j]
      have eb : (Z j).b = y j + |neumaierR (A j) (b j) y| := by rw [hZ j]
      rw [ea, eb]
      constructor <;> simp only [x] <;> linarith [ha.1, ha.2]
    have := tolerable_row hA (ht x hx) i (fun j => (A i j).a) (fun j => ⟨le_refl _, (hA i j).2⟩)
    convert this using 1
    rw [Finset.mul_sum, ← Finset.sum_add_distrib]
    refine Finset.sum_congr rfl fun j _ => ?_
    simp only [x]
    rw [emag]
    split_ifs with hs
    · rw [abs_of_nonneg hs]; ring
    · rw [abs_of_neg (not_le.mp hs)]; ring
  have c1 := corner 1 abs_one
  have c2 := corner (-1) (by rw [abs_neg, abs_one])
  rw [Iv.mem_def] at c1 c2
  rcases le_total 0 ((b i).mid Rnd.exact - ∑ j, (A i j).a * y j) with hh | hh
  · rw [abs_of_nonneg hh] at h1
    linarith [c2.1, c2.2]
  · rw [abs_of_nonpos hh] at h1
    linarith [c1.1, c1.2]

/-- C45 (square point matrix without zero entries): the box lies in the tolerable set exactly when it is a cube. -/
theorem C45_full_iff_partial {n : ℕ} (A : Fin n → Fin n → Iv K) (b : Fin n → Iv K) (y : Fin n → K) (Z : Fin n → Iv K)
    (hA : ∀ i j, Ordinary (A i j)) (hp : ∀ i j, (A i j).a = (A i j).b) (hz : ∀ i j, (A i j).a ≠ 0)
    (hb : ∀ i, Ordinary (b i)) (hy : Tolerable A b y) (h : neumaier A b y none = .ok (List.ofFn Z)) :
    (∀ x, InVec x Z → Tolerable A b x) ↔ ∀ j k, (Z j).b - (Z j).a = (Z k).b - (Z k).a := by
  rw [C45_point_iff_partial A b y Z hA hp hb hy h]
  constructor
  · intro hw j k
    obtain ⟨i, -, hi⟩ := Finset.exists_min_image Finset.univ (fun j => (Z j).b - (Z j).a) ⟨j, Finset.mem_univ j⟩
    have hpos : ∀ j, 0 < (A i j).mag := fun j => by
      rw [Iv.mag, ← hp i j, max_self]; exact abs_pos.mpr (hz i j)
    have hsum : ∑ j, (A i j).mag * (((Z j).b - (Z j).a) - ((Z i).b - (Z i).a)) ≤ 0 := by
      have e : ∑ j, (A i j).mag * (((Z j).b - (Z j).a) - ((Z i).b - (Z i).a)) =
          2 * (∑ j, (A i j).mag * (((Z j).b - (Z j).a) / 2) - (∑ j, (A i j).mag) * (((Z i).b - (Z i).a) / 2)) := by
        rw [Finset.sum_mul, ← Finset.sum_sub_distrib, Finset.mul_sum]
        exact Finset.sum_congr rfl fun j _ => by ring
      rw [e]
      linarith [hw i]
    have hnn : ∀ j ∈ Finset.univ, 0 ≤ (A i j).mag * (((Z j).b - (Z j).a) - ((Z i).b - (Z i).a)) := fun j hj =>
      mul_nonneg (hpos j).le (sub_nonneg.mpr (hi j hj))
    have hzero := (Finset.sum_eq_zero_iff_of_nonneg hnn).mp (le_antisymm hsum (Finset.sum_nonneg hnn))
    have hj : ∀ j, (Z j).b - (Z j).a = (Z i).b - (Z i).a := fun j => by
      rcases mul_eq_zero.mp (hzero j (Finset.mem_univ j)) with e | e
      · exact absurd e (hpos j).ne'
      · exact sub_eq_zero.mp e
    rw [hj j, hj k]
  · intro hc i
    rw [Finset.sum_mul]
    exact (Finset.sum_le_sum fun j _ => le_of_eq (by rw [hc j i]))

/-- Column `j` of `A @ np.diag(w)` consists of the products by `w[j]`. -/
theorem dot_diag {m : ℕ} (row : Fin m → Iv K) (w : Fin m → K) (hA : ∀ j, Ordinary (row j)) (j : Fin m) :
    Ordinary (dotEntry (dotIN Rnd.exact (List.ofFn row) (List.ofFn fun l => if l = j then w j else 0))) ∧
    ∀ s, s ∈ dotEntry (dotIN Rnd.exact (List.ofFn row) (List.ofFn fun l => if l = j then w j else 0)) ↔
      ∃ a, a ∈ row j ∧ s = a * w j := by
  have hm : 0 < m := Nat.lt_of_le_of_lt (Nat.zero_le _) j.isLt
  obtain ⟨Z, hZ, ho, _⟩ := dotIN_exact row (fun l => if l = j then w j else 0) hm hA
  obtain ⟨Z', hZ', hr⟩ := C26_matvec_range row (fun l => if l = j then w j else 0) hm hA
  rw [hZ] at hZ'
  cases hZ'
  rw [hZ]
  have hs : ∀ A' : Fin m → K, ∑ l, A' l * (if l = j then w j else 0) = A' j * w j := fun A' => by
    simp [Finset.sum_ite_eq']
  obtain ⟨Al, hAl, el⟩ := hr.2.1
  obtain ⟨Au, hAu, eu⟩ := hr.2.2
  rw [hs] at el eu
  refine ⟨ho, fun s => ⟨fun h => ?_, ?_⟩⟩
  · rw [dotEntry, Option.getD_some, Iv.mem_def] at h
    have hl := hAl j
    have hu := hAu j
    rw [Iv.mem_def] at hl hu
    by_cases hw : w j = 0
    · exact ⟨Al j, hAl j, by rw [hw, mul_zero] at el eu ⊢; linarith [h.1, h.2]⟩
    · refine ⟨s / w j, ?_, (div_mul_cancel₀ _ hw).symm⟩
      rw [Iv.mem_def]
      rw [el, eu] at h
      rcases lt_or_gt_of_ne hw with hn | hp
      · rw [le_div_iff_of_neg hn, div_le_iff_of_neg hn]
        constructor <;> nlinarith [h.1, h.2, hl.1, hl.2, hu.1, hu.2]
      · rw [le_div_iff₀ hp, div_le_iff₀ hp]
        constructor <;> nlinarith [h.1, h.2, hl.1, hl.2, hu.1, hu.2]
  · rintro ⟨a, ha, rfl⟩
    have := hr.1 _ ⟨fun l => if l = j then a else (row l).a, fun l => by
      by_cases e : l = j
      · subst e; simpa using ha
      · simp only [if_neg e]; exact ⟨le_refl _, (hA l).2⟩, rfl⟩
    rw [hs] at this
    simpa [dotEntry] using this

/-- C45 (weights, square matrix, centre zero): the box `|x_j| ≤ |w_j| r` with the smallest `r` of all rows consists of
tolerable solutions; in particular the whole returned box does when all the numbers `r` are equal. -/
theorem C45_weights_zero_partial {n : ℕ} (A : Fin n → Fin n → Iv K) (b : Fin n → Iv K) (w : Fin n → K) (Z : Fin n → Iv K)
    (hA : ∀ i j, Ordinary (A i j)) (hb : ∀ i, Ordinary (b i)) (hy : Tolerable A b fun _ => 0)
    (h : neumaier A b (fun _ => 0) (some w) = .ok (List.ofFn Z)) (r : K) (hr0 : 0 ≤ r)
    (hr : ∀ k, |w k| * r ≤ ((Z k).b - (Z k).a) / 2 ∧ w k ≠ 0) (x : Fin n → K) (hx : ∀ j, |x j| ≤ |w j| * r) :
    Tolerable A b x := by
  unfold neumaier at h
  dsimp only at h
  split_ifs at h with h0
  set Aw : Fin n → Fin n → Iv K := fun i j => dotEntry (dotIN Rnd.exact (List.ofFn (A i))
    (List.ofFn fun l => if l = j then w j else 0)) with hAw
  have hb2 : ∀ {α β : Type _} (xs : List α) (ys : List β), xs.length = ys.length → npBroadcast2 xs ys = .ok (xs.zip ys) :=
    fun xs ys e => by unfold npBroadcast2; rw [if_pos e]
  rw [hb2 _ _ (by simp)] at h
  dsimp only at h
  rw [hb2 _ _ (by simp)] at h
  simp only [Except.map, Except.ok.injEq, List.zip, zipWith_ofFn, List.map_ofFn] at h
  have hS : ∀ i, 0 < ∑ j, (Aw i j).mag := by
    intro i
    refine lt_of_le_of_ne (Finset.sum_nonneg fun j _ => mag_nonneg' _) fun e => h0 ?_
    rw [List.any_eq_true]
    exact ⟨i, List.mem_finRange i, by simpa using e.symm⟩
  have hZ : ∀ i, ((Z i).b - (Z i).a) / 2 = |w i| * |neumaierR (Aw i) (b i) fun _ => 0| := fun i => by
    have := congrFun (List.ofFn_injective h) i
    rw [← this]
    show ((Iv.radd Rnd.exact 0 (Iv.rmul Rnd.exact (w i * neumaierR (Aw i) (b i) fun _ => 0) ⟨.classical, -1, 1⟩)).b -
      (Iv.radd Rnd.exact 0 (Iv.rmul Rnd.exact (w i * neumaierR (Aw i) (b i) fun _ => 0) ⟨.classical, -1, 1⟩)).a) / 2 = _
    rw [rmul_sym, abs_mul]
    simp only [Iv.radd, Rnd.exact_dn, Rnd.exact_up, id]
    ring
  intro A' hA' i
  have hspec := neumaierR_spec (Aw i) (b i) (fun _ => 0) (fun j => (dot_diag (A i) w (hA i) j).1) (hb i) (hS i)
    (fun a _ => by
      have := tolerable_row hA hy i (fun j => (A i j).a) (fun j => ⟨le_refl _, (hA i j).2⟩)
      simpa using this)
  have hri : r ≤ neumaierR (Aw i) (b i) fun _ => 0 := by
    have h1 := (hr i).1
    rw [hZ i, abs_of_nonneg hspec.1] at h1
    exact le_of_mul_le_mul_left h1 (abs_pos.mpr (hr i).2)
  have := hspec.2 (fun j => x j / w j) (fun j => by
    rw [sub_zero, abs_div, div_le_iff₀ (abs_pos.mpr (hr j).2), mul_comm]
    exact (hx j).trans (mul_le_mul_of_nonneg_left hri (abs_nonneg _))) (fun j => A' i j * w j)
    (fun j => ((dot_diag (A i) w (hA i) j).2 _).mpr ⟨A' i j, hA' i j, rfl⟩)
  convert this using 1
  refine Finset.sum_congr rfl fun j _ => ?_
  rw [mul_assoc, mul_div_cancel₀ _ (hr j).2]

/-- The returned list as pairs of endpoints. -/
def ends : Except Err (List (Iv ℚ)) → Option (List (ℚ × ℚ))
  | .ok l => some (l.map fun X => (X.a, X.b))
  | .error _ => none

theorem ends_ok {r : Except Err (List (Iv ℚ))} {l : List (ℚ × ℚ)} (h : ends r = some l) :
    ∃ L, r = .ok L ∧ L.map (fun X => (X.a, X.b)) = l := by
  cases r with
  | error e => cases h
  | ok L => exact ⟨L, rfl, by simpa [ends] using h⟩

/-- A point matrix, -/
def neuA : Fin 2 → Fin 2 → Iv ℚ :=
  ![![⟨.classical, 1, 1⟩, ⟨.classical, 1, 1⟩], ![⟨.classical, 0, 0⟩, ⟨.classical, 1, 1⟩]]
/-- and right-hand sides of different widths. -/
def neub (c : ℚ) : Fin 2 → Iv ℚ := ![⟨.classical, -1, 1⟩, ⟨.classical, -c, c⟩]

/-- C45 is false of the code: component `j` gets the radius computed for row `j`, instead of the smallest radius of
all rows.  For `x1 + x2 in [-1, 1]`, `x2 in [-10, 10]` and the centre `0` the box is `[-1/2, 1/2] x [-10, 10]`. -/
theorem C45_neumaier_false : ¬ C45_statement ℚ := by
  intro h
  have h1 : ends (neumaier neuA (neub 10) (fun _ => 0) none) = some [(-1/2, 1/2), (-10, 10)] := by decide +kernel
  obtain ⟨L, hL, hM⟩ := ends_ok h1
  obtain ⟨X, Y, rfl⟩ : ∃ X Y, L = [X, Y] := by
    have hl : L.length = 2 := by simpa using congrArg List.length hM
    exact List.length_eq_two.mp hl
  simp only [List.map_cons, List.map_nil, List.cons.injEq, Prod.mk.injEq, and_true] at hM
  have := h 2 2 neuA (neub 10) (fun _ => 0) none ![X, Y] (fun i j => by fin_cases i <;> fin_cases j <;> exact ⟨rfl, le_refl _⟩)
    (fun i => by fin_cases i <;> exact ⟨rfl, by norm_num [neub]⟩) (fun A' _ i => by
      simp only [apply, mul_zero, Finset.sum_const_zero, Iv.mem_def]
      fin_cases i <;> norm_num [neub]) (by rw [hL]; simp [List.ofFn_succ]) ![0, 10] (fun j => by
      fin_cases j
      · show (0 : ℚ) ∈ X
        rw [Iv.mem_def, hM.1.1, hM.1.2]; norm_num
      · show (10 : ℚ) ∈ Y
        rw [Iv.mem_def, hM.2.1, hM.2.2]; norm_num) ![![1, 1], ![0, 1]] (fun i j => by
      rw [Iv.mem_def]; revert i j; decide +kernel) 0
  simp only [apply, Iv.mem_def, Fin.sum_univ_succ, neub] at this
  norm_num at this

/-- C45 is false of the code with weights, already for one equation: `A_w @ y` is used where `A @ y` is meant.  For
`x in [-1, 1]`, the centre `1` and the weight `1/2` the box is `[1/2, 3/2]`. -/
theorem C45_neumaier_weights_false :
    Tolerable (fun _ _ : Fin 1 => (⟨.classical, 1, 1⟩ : Iv ℚ)) (fun _ => ⟨.classical, -1, 1⟩) (fun _ => 1) ∧
    ends (neumaier (fun _ _ : Fin 1 => ⟨.classical, 1, 1⟩) (fun _ => ⟨.classical, -1, 1⟩) (fun _ => 1)
      (some fun _ => 1/2)) = some [(1/2, 3/2)] ∧
    ¬ Tolerable (fun _ _ : Fin 1 => (⟨.classical, 1, 1⟩ : Iv ℚ)) (fun _ => ⟨.classical, -1, 1⟩) (fun _ => 3/2) := by
  refine ⟨fun A' hA' i => ?_, by decide +kernel, fun h => ?_⟩
  · have h1 := hA' i 0
    rw [Iv.mem_def] at h1
    simp only [apply, Iv.mem_def, Finset.univ_unique, Fin.default_eq_zero, Finset.sum_singleton]
    constructor <;> linarith [h1.1, h1.2]
  · have := h (fun _ _ => 1) (fun _ _ => ⟨le_refl _, le_refl _⟩) 0
    simp only [apply, Iv.mem_def, Finset.univ_unique, Fin.default_eq_zero, Finset.sum_singleton] at this
    norm_num at this

/-- A case meeting the hypotheses of the two partial theorems: the second right-hand side is scaled so that the box is
the cube `[-1/2, 1/2] x [-1/2, 1/2]`. -/
example : Tolerable neuA (neub (1/2)) (fun _ => 0) ∧
    ends (neumaier neuA (neub (1/2)) (fun _ => 0) none) = some [(-1/2, 1/2), (-1/2, 1/2)] := by
  refine ⟨fun A' _ i => ?_, by decide +kernel⟩
  simp only [apply, mul_zero, Finset.sum_const_zero, Iv.mem_def]
  fin_cases i <;> norm_num [neub]

/-- A triangular system whose box is not a cube and yet is correct, as `C45_mean_partial` says: `x1 + x2 in [-4, 4]`,
`x2 in [-1, 1]` gives `[-2, 2] x [-1, 1]`. -/
example : ends (neumaier neuA ![⟨.classical, -4, 4⟩, ⟨.classical, -1, 1⟩] (fun _ => 0) none) = some [(-2, 2), (-1, 1)] ∧
    (∀ i, (neuA i 0).mag * 2 + (neuA i 1).mag * 1 ≤ ((neuA i 0).mag + (neuA i 1).mag) * ![2, 1] i) := by
  decide +kernel

/-- Weights and the centre zero: `x1 + x2 in [-3, 3]`, `x2 in [-2, 2]` with the weights `1, 2` gives
`[-1, 1] x [-2, 2]`, and `C45_weights_zero_partial` applies with `r = 1`. -/
example : ends (neumaier neuA ![⟨.classical, -3, 3⟩, ⟨.classical, -2, 2⟩] (fun _ => 0) (some ![1, 2])) =
    some [(-1, 1), (-2, 2)] := by
  decide +kernel

/-- With no zero entries and different widths the box is wrong, as `C45_full_iff_partial` says. -/
example : ends (neumaier (fun _ _ : Fin 2 => ⟨.classical, 1, 1⟩) ![⟨.classical, -4, 4⟩, ⟨.classical, -1, 1⟩] (fun _ => 0)
    none) = some [(-2, 2), (-1/2, 1/2)] := by
  decide +kernel

end IntvalPy
