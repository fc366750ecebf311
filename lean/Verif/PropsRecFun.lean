import Verif.ModelRecFun
import Verif.SpecRecFun
import Verif.PropsArray
import Verif.PropsExpr
import Mathlib.Tactic.Linarith
import Mathlib.Tactic.FieldSimp
import Mathlib.Tactic.Ring

/-!
# Recognizing functionals: C30-C34, C67, C68
-/

set_option autoImplicit false
set_option linter.unusedSectionVars false

namespace IntvalPy
open Spec

variable {K : Type*} [Field K] [LinearOrder K] [IsStrictOrderedRing K]

/-! ## Helpers -/

theorem foldl_min_spec (xs : List K) (x : K) :
    xs.foldl min x ∈ x :: xs ∧ ∀ y ∈ x :: xs, xs.foldl min x ≤ y := by
  induction xs generalizing x with
  | nil => simp
  | cons z zs ih =>
    obtain ⟨h1, h2⟩ := ih (min x z)
    refine ⟨?_, ?_⟩
    · rw [List.foldl_cons]
      rcases List.mem_cons.mp h1 with h | h
      · rw [h]
        rcases min_choice x z with h | h <;> rw [h] <;> simp
      · simp [h]
    · intro y hy
      rw [List.foldl_cons]
      have h3 := h2 (min x z) (by simp)
      rcases List.mem_cons.mp hy with rfl | hy
      · exact h3.trans (min_le_left _ _)
      rcases List.mem_cons.mp hy with rfl | hy
      · exact h3.trans (min_le_right _ _)
      · exact h2 y (by simp [hy])

theorem npAmin_spec {l : List K} {v : K} (h : npAmin l = .ok v) : v ∈ l ∧ ∀ x ∈ l, v ≤ x := by
  cases l with
  | nil => cases h
  | cons x xs => cases h; exact foldl_min_spec xs x

theorem npAmin_ok {l : List K} (h : l ≠ []) : ∃ v, npAmin l = .ok v := by
  cases l with
  | nil => exact absurd rfl h
  | cons x xs => exact ⟨_, rfl⟩

theorem mapM_id_ok (l : List K) : (l.map Except.ok).mapM (id : Except Err K → Except Err K) = .ok l := by
  induction l with
  | nil => rfl
  | cons x xs ih => rw [List.map_cons, List.mapM_cons, ih]; rfl

theorem minOver_ok {m : ℕ} (f : Fin m → Except Err K) (g : Fin m → K) (h : ∀ i, f i = .ok (g i)) :
    minOver (List.ofFn f) = npAmin (List.ofFn g) := by
  have : List.ofFn f = (List.ofFn g).map Except.ok := by
    rw [List.map_ofFn]
    exact congrArg List.ofFn (funext h)
  rw [minOver, this, mapM_id_ok]

/-- The minimum of an array indexed by `Fin m`. -/
theorem npAmin_ofFn {m : ℕ} (hm : 0 < m) (g : Fin m → K) :
    ∃ v, npAmin (List.ofFn g) = .ok v ∧ (∃ i, v = g i) ∧ ∀ i, v ≤ g i := by
  obtain ⟨v, hv⟩ := npAmin_ok (l := List.ofFn g) (by
    intro h
    have := congrArg List.length h
    simp at this
    omega)
  obtain ⟨h1, h2⟩ := npAmin_spec hv
  obtain ⟨i, hi⟩ := (List.mem_ofFn' _ _).mp h1
  exact ⟨v, hv, ⟨i, hi.symm⟩, fun i => h2 _ ((List.mem_ofFn' _ _).mpr ⟨i, rfl⟩)⟩

theorem npAmin_ofFn_nonneg {m : ℕ} (hm : 0 < m) (g : Fin m → K) :
    ∃ v, npAmin (List.ofFn g) = .ok v ∧ (0 ≤ v ↔ ∀ i, 0 ≤ g i) := by
  obtain ⟨v, h1, ⟨i, h2⟩, h3⟩ := npAmin_ofFn hm g
  exact ⟨v, h1, fun h i => h.trans (h3 i), fun h => h2 ▸ h i⟩

theorem npArgmin_ok {m : ℕ} (hm : 0 < m) (g : Fin m → K) :
    ∃ i, npArgmin g = .ok i ∧ ∀ j, g i ≤ g j := by
  unfold npArgmin
  cases h : (List.finRange m).argmin g with
  | none =>
    rw [List.argmin_eq_none] at h
    have := congrArg List.length h
    simp at this
    omega
  | some i => exact ⟨i, rfl, fun j => List.le_of_mem_argmin (List.mem_finRange j) h⟩

theorem npArgmin_npAmin {m : ℕ} {g : Fin m → K} {i : Fin m} (h : npArgmin g = .ok i) :
    npAmin (List.ofFn g) = .ok (g i) := by
  have hm : 0 < m := i.pos
  obtain ⟨i', h1, h2⟩ := npArgmin_ok hm g
  rw [h] at h1
  cases h1
  obtain ⟨v, hv, ⟨k, hk⟩, hle⟩ := npAmin_ofFn hm g
  rw [hv, le_antisymm (hle i) (hk ▸ h2 k)]

/-! ## Interval row times point vector in midpoint-radius form -/

theorem rmul_midrad (c : K) (X : Iv K) (hX : Ordinary X) :
    (Iv.rmul Rnd.exact c X).a = X.mid Rnd.exact * c - X.rad Rnd.exact * |c| ∧
    (Iv.rmul Rnd.exact c X).b = X.mid Rnd.exact * c + X.rad Rnd.exact * |c| := by
  obtain ⟨hc, hab⟩ := hX
  have e : ∀ y : K, (1 / 2 : K) * y = y / 2 := fun y => by ring
  simp only [Iv.rmul, hc, Iv.mid, Iv.rad, Iv.wid, Rnd.exact_dn, Rnd.exact_up, Rnd.exact_nr, id, e]
  rcases le_total 0 c with h | h
  · have := mul_le_mul_of_nonneg_left hab h
    rw [min_eq_left this, max_eq_right this, abs_of_nonneg h]
    constructor <;> ring
  · have := mul_le_mul_of_nonpos_left hab h
    rw [min_eq_right this, max_eq_left this, abs_of_nonpos h]
    constructor <;> ring

/-- Midpoint of the row product. -/
def rowMid {n : ℕ} (row : Fin n → Iv K) (x : Fin n → K) : K := ∑ j, (row j).mid Rnd.exact * x j
/-- Radius of the row product. -/
def rowRad {n : ℕ} (row : Fin n → Iv K) (x : Fin n → K) : K := ∑ j, (row j).rad Rnd.exact * |x j|

theorem rad_nonneg {X : Iv K} (hX : Ordinary X) : 0 ≤ X.rad Rnd.exact := by
  have := hX.2
  simp only [Iv.rad, Iv.wid, Rnd.exact_nr, id]
  linarith

theorem rowRad_nonneg {n : ℕ} {row : Fin n → Iv K} (h : ∀ j, Ordinary (row j)) (x : Fin n → K) :
    0 ≤ rowRad row x :=
  Finset.sum_nonneg fun j _ => mul_nonneg (rad_nonneg (h j)) (abs_nonneg _)

theorem rowDot_exact {n : ℕ} (row : Fin n → Iv K) (x : Fin n → K) (hn : 0 < n) (h : ∀ j, Ordinary (row j)) :
    ∃ Z, rowDot Rnd.exact row x = .ok Z ∧ Ordinary Z ∧ Z.a = rowMid row x - rowRad row x ∧
      Z.b = rowMid row x + rowRad row x := by
  obtain ⟨Z, h1, h2, h3, h4⟩ := dotIN_exact row x hn h
  refine ⟨Z, by rw [rowDot, h1], h2, ?_, ?_⟩
  · rw [h3, rowMid, rowRad, ← Finset.sum_sub_distrib]
    exact Finset.sum_congr rfl fun j _ => (rmul_midrad _ _ (h j)).1
  · rw [h4, rowMid, rowRad, ← Finset.sum_add_distrib]
    exact Finset.sum_congr rfl fun j _ => (rmul_midrad _ _ (h j)).2

/-- The values `A' x` of a row, `A'` in the row, are exactly the points between the two bounds. -/
theorem row_values {n : ℕ} (row : Fin n → Iv K) (x : Fin n → K) (hn : 0 < n) (h : ∀ j, Ordinary (row j)) (s : K) :
    (∃ A' : Fin n → K, (∀ j, A' j ∈ row j) ∧ ∑ j, A' j * x j = s) ↔
      rowMid row x - rowRad row x ≤ s ∧ s ≤ rowMid row x + rowRad row x := by
  obtain ⟨Z, hZ, hr, ⟨A1, hA1, e1⟩, ⟨A2, hA2, e2⟩⟩ := C26_matvec_range row x hn h
  obtain ⟨Z', hZ', hO, ha, hb⟩ := rowDot_exact row x hn h
  rw [rowDot, hZ] at hZ'
  cases hZ'
  rw [← ha, ← hb]
  constructor
  · rintro ⟨A', hA', rfl⟩
    exact hr _ ⟨A', hA', rfl⟩
  · rintro ⟨h1, h2⟩
    rcases eq_or_lt_of_le hO.2 with heq | hlt
    · exact ⟨A1, hA1, by rw [← e1]; exact le_antisymm h1 (heq ▸ h2)⟩
    have hd : 0 < Z.b - Z.a := sub_pos.mpr hlt
    set t := (s - Z.a) / (Z.b - Z.a) with ht
    have ht0 : 0 ≤ t := div_nonneg (by linarith) hd.le
    have ht1 : t ≤ 1 := by rw [ht, div_le_one hd]; linarith
    have ht' : t * (Z.b - Z.a) = s - Z.a := div_mul_cancel₀ _ hd.ne'
    refine ⟨fun j => (1 - t) * A1 j + t * A2 j, fun j => ?_, ?_⟩
    · obtain ⟨p1, p2⟩ := hA1 j
      obtain ⟨q1, q2⟩ := hA2 j
      have h1t : 0 ≤ 1 - t := by linarith
      constructor
      · nlinarith [mul_le_mul_of_nonneg_left p1 h1t, mul_le_mul_of_nonneg_left q1 ht0]
      · nlinarith [mul_le_mul_of_nonneg_left p2 h1t, mul_le_mul_of_nonneg_left q2 ht0]
    · have : ∑ j, ((1 - t) * A1 j + t * A2 j) * x j
          = (1 - t) * ∑ j, A1 j * x j + t * ∑ j, A2 j * x j := by
        rw [Finset.mul_sum, Finset.mul_sum, ← Finset.sum_add_distrib]
        exact Finset.sum_congr rfl fun j _ => by ring
      rw [this, ← e1, ← e2]
      linarith

theorem mid_sub_rad (X : Iv K) : X.mid Rnd.exact - X.rad Rnd.exact = X.a := by
  simp only [Iv.mid, Iv.rad, Iv.wid, Rnd.exact_nr, id]; ring

theorem mid_add_rad (X : Iv K) : X.mid Rnd.exact + X.rad Rnd.exact = X.b := by
  simp only [Iv.mid, Iv.rad, Iv.wid, Rnd.exact_nr, id]; ring

/-! ## C30: Tol -/

theorem tolConstituent_exact {n : ℕ} (row : Fin n → Iv K) (b : Iv K) (w : K) (x : Fin n → K) (hn : 0 < n)
    (h : ∀ j, Ordinary (row j)) :
    tolConstituent Rnd.exact row b w x = .ok (w * (b.rad Rnd.exact -
      max |b.mid Rnd.exact - (rowMid row x + rowRad row x)| |b.mid Rnd.exact - (rowMid row x - rowRad row x)|)) := by
  obtain ⟨Z, h1, _, ha, hb⟩ := rowDot_exact row x hn h
  simp only [tolConstituent, h1, Rnd.exact_nr, id, Iv.mag, Iv.ufuncSub, Iv.radd, Iv.neg, Rnd.exact_dn, Rnd.exact_up,
    ha, hb]
  congr 3
  congr 1 <;> congr 1 <;> ring

theorem max_abs_eq {p q : K} (h : p ≤ q) : max |p| |q| = max (-p) q := by
  apply le_antisymm
  · refine max_le ?_ ?_
    · rw [abs_le]
      constructor
      · have := le_max_left (-p) q; linarith
      · exact h.trans (le_max_right _ _)
    · rw [abs_le]
      constructor
      · have := le_max_left (-p) q; linarith
      · exact le_max_right _ _
  · exact max_le_max (neg_le_abs p) (le_abs_self q)

/-- C30: the value of `Tol` is nonnegative exactly on the tolerable solution set. -/
theorem C30_tol_iff_tolerable {m n : ℕ} (hm : 0 < m) (hn : 0 < n) (A : Fin m → Fin n → Iv K) (b : Fin m → Iv K)
    (w : Fin m → K) (x : Fin n → K) (hA : ∀ i j, Ordinary (A i j)) (hw : ∀ i, 0 < w i) :
    ∃ v, tolValue Rnd.exact A b w x = .ok v ∧ (0 ≤ v ↔ Tolerable A b x) := by
  rw [tolValue, minOver_ok _ _ fun i => tolConstituent_exact (A i) (b i) (w i) x hn (hA i)]
  refine (npAmin_ofFn_nonneg hm _).imp fun v h => ⟨h.1, h.2.trans ?_⟩
  have key : ∀ i, 0 ≤ w i * ((b i).rad Rnd.exact -
      max |(b i).mid Rnd.exact - (rowMid (A i) x + rowRad (A i) x)|
        |(b i).mid Rnd.exact - (rowMid (A i) x - rowRad (A i) x)|) ↔
      (b i).a ≤ rowMid (A i) x - rowRad (A i) x ∧ rowMid (A i) x + rowRad (A i) x ≤ (b i).b := by
    intro i
    have hr := rowRad_nonneg (hA i) x
    rw [mul_nonneg_iff_of_pos_left (hw i), sub_nonneg, max_abs_eq (by linarith), max_le_iff,
      ← mid_sub_rad (b i), ← mid_add_rad (b i)]
    constructor
    · rintro ⟨h1, h2⟩; constructor <;> linarith
    · rintro ⟨h1, h2⟩; constructor <;> linarith
  constructor
  · intro h A' hA' i
    obtain ⟨k1, k2⟩ := (key i).mp (h i)
    obtain ⟨l1, l2⟩ := (row_values (A i) x hn (hA i) _).mp ⟨A' i, hA' i, rfl⟩
    exact ⟨k1.trans l1, l2.trans k2⟩
  · intro h i
    rw [key i]
    have hr := rowRad_nonneg (hA i) x
    obtain ⟨A1, hA1, e1⟩ := (row_values (A i) x hn (hA i) (rowMid (A i) x - rowRad (A i) x)).mpr
      ⟨le_refl _, by linarith⟩
    obtain ⟨A2, hA2, e2⟩ := (row_values (A i) x hn (hA i) (rowMid (A i) x + rowRad (A i) x)).mpr
      ⟨by linarith, le_refl _⟩
    have ext : ∀ r : Fin n → K, (∀ j, r j ∈ A i j) →
        InMat (fun i' j => if i' = i then r j else (A i' j).a) A := by
      intro r hr' i' j
      by_cases hi : i' = i
      · subst hi; simpa using hr' j
      · simpa [hi] using memL (hA i' j)
    have u1 := h _ (ext A1 hA1) i
    have u2 := h _ (ext A2 hA2) i
    simp only [apply, if_true] at u1 u2
    rw [e1] at u1
    rw [e2] at u2
    exact ⟨u1.1, u2.2⟩

/-- The system `[1,2] x = [1,4]` at `x = 1` (inside) and `x = 3` (outside). -/
example : tolValue (Rnd.exact : Rnd ℚ) (fun _ _ => ⟨.classical, 1, 2⟩ : Fin 1 → Fin 1 → Iv ℚ)
      (fun _ => ⟨.classical, 1, 4⟩) (fun _ => 1) (fun _ => 1) = .ok 0 ∧
    tolValue (Rnd.exact : Rnd ℚ) (fun _ _ => ⟨.classical, 1, 2⟩ : Fin 1 → Fin 1 → Iv ℚ)
      (fun _ => ⟨.classical, 1, 4⟩) (fun _ => 1) (fun _ => 3) = .ok (-2) := by
  constructor <;> decide +kernel

/-- C30: without rows the call raises `ValueError`; with rows but no columns it raises `AttributeError`; no value is
returned in either case. -/
theorem C30_degenerate (R : Rnd K) {m n : ℕ} (A : Fin m → Fin n → Iv K) (b : Fin m → Iv K) (w : Fin m → K)
    (x : Fin n → K) : (m = 0 → tolValue R A b w x = .error .valueError) ∧
    (0 < m → n = 0 → tolValue R A b w x = .error .attributeError) := by
  constructor
  · rintro rfl
    rfl
  · rintro hm rfl
    obtain ⟨m, rfl⟩ := Nat.exists_eq_succ_of_ne_zero hm.ne'
    unfold tolValue
    rw [List.ofFn_succ]
    rfl

/-! ## C31: Uni and Uss -/

theorem uniConstituent_exact {n : ℕ} (row : Fin n → Iv K) (b : Iv K) (w : K) (x : Fin n → K) (hn : 0 < n)
    (h : ∀ j, Ordinary (row j)) :
    uniConstituent Rnd.exact row b w x = .ok (w * (b.rad Rnd.exact -
      (if b.mid Rnd.exact - (rowMid row x + rowRad row x) ≤ 0 ∧ 0 ≤ b.mid Rnd.exact - (rowMid row x - rowRad row x)
        then 0
        else min |b.mid Rnd.exact - (rowMid row x + rowRad row x)|
          |b.mid Rnd.exact - (rowMid row x - rowRad row x)|))) := by
  obtain ⟨Z, h1, _, ha, hb⟩ := rowDot_exact row x hn h
  have e1 : -(rowMid row x + rowRad row x) + b.mid Rnd.exact = b.mid Rnd.exact - (rowMid row x + rowRad row x) := by
    ring
  have e2 : -(rowMid row x - rowRad row x) + b.mid Rnd.exact = b.mid Rnd.exact - (rowMid row x - rowRad row x) := by
    ring
  simp only [uniConstituent, h1, Rnd.exact_nr, id, Iv.mig, Iv.containsNum, Iv.ufuncSub, Iv.radd, Iv.neg,
    Rnd.exact_dn, Rnd.exact_up, ha, hb, e1, e2, Bool.and_eq_true, decide_eq_true_eq]

/-- A row is satisfied by some `A'`, `b'` exactly when the two intervals of values meet. -/
theorem united_iff {m n : ℕ} (hn : 0 < n) (A : Fin m → Fin n → Iv K) (b : Fin m → Iv K) (x : Fin n → K)
    (hA : ∀ i j, Ordinary (A i j)) :
    United A b x ↔ ∀ i, (b i).a ≤ (b i).b ∧ rowMid (A i) x - rowRad (A i) x ≤ (b i).b ∧
      (b i).a ≤ rowMid (A i) x + rowRad (A i) x := by
  constructor
  · rintro ⟨A', hA', b', hb', e⟩ i
    obtain ⟨l1, l2⟩ := (row_values (A i) x hn (hA i) _).mp ⟨A' i, hA' i, rfl⟩
    obtain ⟨k1, k2⟩ := hb' i
    have := e i
    rw [apply] at this
    rw [this] at l1 l2
    exact ⟨k1.trans k2, l1.trans k2, k1.trans l2⟩
  · intro h
    have : ∀ i, ∃ A' : Fin n → K, (∀ j, A' j ∈ A i j) ∧ ∑ j, A' j * x j ∈ b i := by
      intro i
      obtain ⟨h0, h1, h2⟩ := h i
      have hr := rowRad_nonneg (hA i) x
      obtain ⟨A', hA', e⟩ := (row_values (A i) x hn (hA i)
        (max (b i).a (rowMid (A i) x - rowRad (A i) x))).mpr
        ⟨le_max_right _ _, max_le h2 (by linarith)⟩
      exact ⟨A', hA', by rw [e]; exact ⟨le_max_left _ _, max_le h0 h1⟩⟩
    choose A' h1 h2 using this
    exact ⟨A', h1, apply A' x, h2, fun i => rfl⟩

/-- C31: the value of `Uni` is nonnegative exactly on the united solution set. -/
theorem C31_uni_iff_united {m n : ℕ} (hm : 0 < m) (hn : 0 < n) (A : Fin m → Fin n → Iv K) (b : Fin m → Iv K)
    (w : Fin m → K) (x : Fin n → K) (hA : ∀ i j, Ordinary (A i j)) (hw : ∀ i, 0 < w i) :
    ∃ v, uniValue Rnd.exact A b w x = .ok v ∧ (0 ≤ v ↔ United A b x) := by
  rw [uniValue, minOver_ok _ _ fun i => uniConstituent_exact (A i) (b i) (w i) x hn (hA i)]
  refine (npAmin_ofFn_nonneg hm _).imp fun v h => ⟨h.1, h.2.trans ?_⟩
  rw [united_iff hn A b x hA]
  refine forall_congr' fun i => ?_
  have hr := rowRad_nonneg (hA i) x
  rw [mul_nonneg_iff_of_pos_left (hw i), sub_nonneg, ← mid_sub_rad (b i), ← mid_add_rad (b i)]
  set M := (b i).mid Rnd.exact
  set r := (b i).rad Rnd.exact
  set p := rowMid (A i) x
  set q := rowRad (A i) x
  split_ifs with hc
  · constructor
    · intro h; refine ⟨?_, ?_, ?_⟩ <;> linarith
    · rintro ⟨h, _, _⟩; linarith
  · rw [min_le_iff, abs_le, abs_le]
    rw [not_and_or, not_le, not_le] at hc
    constructor
    · rintro (⟨h1, h2⟩ | ⟨h1, h2⟩)
      · refine ⟨by linarith, ?_, ?_⟩ <;> rcases hc with hc | hc <;> linarith
      · refine ⟨by linarith, ?_, ?_⟩ <;> rcases hc with hc | hc <;> linarith
    · rintro ⟨h0, h1, h2⟩
      rcases hc with hc | hc
      · exact Or.inl ⟨by linarith, by linarith⟩
      · exact Or.inr ⟨by linarith, by linarith⟩

/-- C31: the value of `Uss` is nonnegative exactly on the united solution set. -/
theorem C31_uss_iff_united {m n : ℕ} (hm : 0 < m) (hn : 0 < n) (A : Fin m → Fin n → Iv K) (b : Fin m → Iv K)
    (w : Fin m → K) (x : Fin n → K) (hA : ∀ i j, Ordinary (A i j)) (hb : ∀ i, Ordinary (b i))
    (hw : ∀ i, 0 < w i) :
    ∃ v, ussValue A b w x = .ok v ∧ (0 ≤ v ↔ United A b x) := by
  rw [ussValue]
  obtain ⟨v, h1, h2⟩ := npAmin_ofFn_nonneg hm (fun i => ussConstituent (A i) (b i) (w i) x)
  refine ⟨v, h1, h2.trans ?_⟩
  rw [united_iff hn A b x hA]
  refine forall_congr' fun i => ?_
  rw [ussConstituent, mul_nonneg_iff_of_pos_left (hw i), sub_nonneg, abs_le, ← mid_sub_rad (b i),
    ← mid_add_rad (b i)]
  have hr := rad_nonneg (hb i)
  change _ ≤ (b i).mid Rnd.exact - rowMid (A i) x ∧ (b i).mid Rnd.exact - rowMid (A i) x ≤
    (b i).rad Rnd.exact + rowRad (A i) x ↔ _
  have e : -((b i).rad Rnd.exact + rowRad (A i) x) ≤ (b i).mid Rnd.exact - rowMid (A i) x ↔
    rowMid (A i) x - rowRad (A i) x ≤ (b i).mid Rnd.exact + (b i).rad Rnd.exact := by
    constructor <;> intro h <;> linarith
  change -((b i).rad Rnd.exact + rowRad (A i) x) ≤ _ ∧ _ ↔ _
  rw [e]
  constructor
  · rintro ⟨h1, h2⟩; refine ⟨?_, h1, ?_⟩ <;> linarith
  · rintro ⟨_, h1, h2⟩; exact ⟨h1, by linarith⟩

/-- The system `[1,2] x = [1,4]` at `x = 3` (inside) and `x = 5` (outside). -/
example : uniValue (Rnd.exact : Rnd ℚ) (fun _ _ => ⟨.classical, 1, 2⟩ : Fin 1 → Fin 1 → Iv ℚ)
      (fun _ => ⟨.classical, 1, 4⟩) (fun _ => 1) (fun _ => 3) = .ok 1 ∧
    uniValue (Rnd.exact : Rnd ℚ) (fun _ _ => ⟨.classical, 1, 2⟩ : Fin 1 → Fin 1 → Iv ℚ)
      (fun _ => ⟨.classical, 1, 4⟩) (fun _ => 1) (fun _ => 5) = .ok (-1) ∧
    ussValue (fun _ _ => ⟨.classical, 1, 2⟩ : Fin 1 → Fin 1 → Iv ℚ)
      (fun _ => ⟨.classical, 1, 4⟩) (fun _ => 1) (fun _ => 5) = .ok (-1) := by
  refine ⟨?_, ?_, ?_⟩ <;> decide +kernel

/-! ## C33: the objective of the optimiser -/

variable {m n : ℕ}

theorem mixRow_mem (row : Fin n → Iv K) (h : ∀ j, Ordinary (row j)) (x : Fin n → K) :
    (∀ j, mixRow (fun j => (row j).a) (fun j => (row j).b) x j ∈ row j) ∧
    (∀ j, mixRow (fun j => (row j).b) (fun j => (row j).a) x j ∈ row j) := by
  constructor <;> intro j <;> unfold mixRow <;> split_ifs
  · exact memL (h j)
  · exact ⟨(h j).2, le_refl _⟩
  · exact ⟨(h j).2, le_refl _⟩
  · exact memL (h j)

theorem mixRow_sum (row : Fin n → Iv K) (x : Fin n → K) :
    ∑ j, mixRow (fun j => (row j).a) (fun j => (row j).b) x j * x j = rowMid row x - rowRad row x ∧
    ∑ j, mixRow (fun j => (row j).b) (fun j => (row j).a) x j * x j = rowMid row x + rowRad row x := by
  unfold rowMid rowRad
  rw [← Finset.sum_sub_distrib, ← Finset.sum_add_distrib]
  constructor <;> refine Finset.sum_congr rfl fun j _ => ?_ <;> unfold mixRow <;> split_ifs with h <;> beta_reduce
  · rw [abs_of_nonneg h, ← mid_sub_rad (row j)]; ring
  · rw [abs_of_neg (not_le.mp h), ← mid_add_rad (row j)]; ring
  · rw [abs_of_nonneg h, ← mid_add_rad (row j)]; ring
  · rw [abs_of_neg (not_le.mp h), ← mid_sub_rad (row j)]; ring

theorem tolValue_eq (hn : 0 < n) (A : Fin m → Fin n → Iv K) (b : Fin m → Iv K) (w : Fin m → K) (x : Fin n → K)
    (hA : ∀ i j, Ordinary (A i j)) :
    tolValue Rnd.exact A b w x = npAmin (List.ofFn (tolArr (recData A b w) x)) := by
  rw [tolValue, minOver_ok _ _ fun i => tolConstituent_exact (A i) (b i) (w i) x hn (hA i)]
  rfl

theorem uniValue_eq (hn : 0 < n) (A : Fin m → Fin n → Iv K) (b : Fin m → Iv K) (w : Fin m → K) (x : Fin n → K)
    (hA : ∀ i j, Ordinary (A i j)) :
    uniValue Rnd.exact A b w x = npAmin (List.ofFn (uniArr (recData A b w) x)) := by
  rw [uniValue, minOver_ok _ _ fun i => uniConstituent_exact (A i) (b i) (w i) x hn (hA i)]
  congr 2
  funext i
  have hr := rowRad_nonneg (hA i) x
  change _ = w i * ((b i).rad Rnd.exact - uniMig ((b i).mid Rnd.exact - (rowMid (A i) x + rowRad (A i) x))
    ((b i).mid Rnd.exact - (rowMid (A i) x - rowRad (A i) x)))
  rw [uniMig]
  congr 3
  rw [mul_nonpos_iff]
  apply propext
  constructor
  · rintro ⟨h1, h2⟩; exact Or.inr ⟨h1, h2⟩
  · rintro (⟨h1, h2⟩ | h)
    · constructor <;> linarith
    · exact h

theorem ussValue_eq (A : Fin m → Fin n → Iv K) (b : Fin m → Iv K) (w : Fin m → K) (x : Fin n → K) :
    ussValue A b w x = npAmin (List.ofFn (ussArr (recData A b w) x)) := rfl

/-- C33: the number minimised by `maximize` is minus the public functional, for the three functionals and
whatever the endpoint views return. -/
theorem C33_objective_is_minus_value (F : RecFun) (hm : 0 < m) (hn : 0 < n) (A : Fin m → Fin n → Iv K)
    (b : Fin m → Iv K) (w : Fin m → K) (x : Fin n → K) (I S : Fin m → Fin n → K)
    (hA : ∀ i j, Ordinary (A i j)) :
    ∃ f g, F.calcfg ((recData A b w).withViews I S) x = .ok (f, g) ∧
      F.value A b w x = .ok (-f) := by
  cases F with
  | tol =>
    obtain ⟨i, h1, _⟩ := npArgmin_ok hm (tolArr (recData A b w) x)
    refine ⟨_, _, by
      simp only [RecFun.calcfg, tolCalcfg]
      change (match npArgmin (tolArr (recData A b w) x) with | .error e => _ | .ok mc => _) = _
      rw [h1], ?_⟩
    rw [RecFun.value, tolValue_eq hn A b w x hA, npArgmin_npAmin h1, neg_neg]
    rfl
  | uni =>
    obtain ⟨i, h1, _⟩ := npArgmin_ok hm (uniArr (recData A b w) x)
    refine ⟨_, _, by
      simp only [RecFun.calcfg, uniCalcfg]
      change (match npArgmin (uniArr (recData A b w) x) with | .error e => _ | .ok mc => _) = _
      rw [h1], ?_⟩
    rw [RecFun.value, uniValue_eq hn A b w x hA, npArgmin_npAmin h1, neg_neg]
    rfl
  | uss =>
    obtain ⟨i, h1, _⟩ := npArgmin_ok hm (ussArr (recData A b w) x)
    refine ⟨_, _, by
      simp only [RecFun.calcfg, ussCalcfg]
      change (match npArgmin (ussArr (recData A b w) x) with | .error e => _ | .ok mc => _) = _
      rw [h1], ?_⟩
    rw [RecFun.value, ussValue_eq, npArgmin_npAmin h1, neg_neg]
    rfl

example : (RecFun.tol.calcfg (recData (fun _ _ => ⟨.classical, 1, 2⟩ : Fin 1 → Fin 1 → Iv ℚ)
    (fun _ => ⟨.classical, 1, 4⟩) (fun _ => 1)) (fun _ => 3)).map Prod.fst = .ok 2 := by decide +kernel

/-! ## C32: concavity and supergradient of Tol -/

/-- C32, partial: when the endpoint views return the stored endpoints, the pair given to the optimiser is the
value of `Tol` and a supergradient (both negated).
Missing: integer-first matrices, where the views are truncated and the property fails (see `C32_tol_false`). -/
theorem C32_tol_supergradient_partial (hn : 0 < n) (A : Fin m → Fin n → Iv K) (b : Fin m → Iv K) (w : Fin m → K)
    (hA : ∀ i j, Ordinary (A i j)) (hw : ∀ i, 0 < w i) (x y : Fin n → K) (f : K) (g : Fin n → K) (v : K)
    (h : tolCalcfg (recData A b w) x = .ok (f, g)) (hv : tolValue Rnd.exact A b w y = .ok v) :
    v ≤ -f + ∑ j, -g j * (y j - x j) := by
  rw [tolCalcfg] at h
  cases hmc : npArgmin (tolArr (recData A b w) x) with
  | error e => rw [hmc] at h; cases h
  | ok mc =>
    rw [hmc] at h
    simp only [Except.ok.injEq, Prod.mk.injEq] at h
    obtain ⟨hf, hg⟩ := h
    rw [tolValue_eq hn A b w y hA] at hv
    have hv2 := (npAmin_spec hv).2 _ ((List.mem_ofFn' _ _).mpr ⟨mc, rfl⟩)
    refine hv2.trans ?_
    have e : ∀ z : Fin n → K, tolArr (recData A b w) z mc = w mc * ((b mc).rad Rnd.exact -
        max (-((b mc).mid Rnd.exact - (rowMid (A mc) z + rowRad (A mc) z)))
          ((b mc).mid Rnd.exact - (rowMid (A mc) z - rowRad (A mc) z))) := by
      intro z
      have hr := rowRad_nonneg (hA mc) z
      rw [← max_abs_eq (by linarith)]
      rfl
    have hsum : ∀ c : Fin n → K, ∑ j, c j * (y j - x j) = ∑ j, c j * y j - ∑ j, c j * x j := fun c => by
      rw [← Finset.sum_sub_distrib]
      exact Finset.sum_congr rfl fun j _ => by ring
    rw [← hf, neg_neg, e x, e y]
    have hi : infs (recData A b w) x mc = (b mc).mid Rnd.exact - (rowMid (A mc) x + rowRad (A mc) x) := rfl
    have hs : sups (recData A b w) x mc = (b mc).mid Rnd.exact - (rowMid (A mc) x - rowRad (A mc) x) := rfl
    have m1 := le_max_left (-((b mc).mid Rnd.exact - (rowMid (A mc) y + rowRad (A mc) y)))
      ((b mc).mid Rnd.exact - (rowMid (A mc) y - rowRad (A mc) y))
    have m2 := le_max_right (-((b mc).mid Rnd.exact - (rowMid (A mc) y + rowRad (A mc) y)))
      ((b mc).mid Rnd.exact - (rowMid (A mc) y - rowRad (A mc) y))
    by_cases hc : -(infs (recData A b w) x mc) ≤ sups (recData A b w) x mc
    · rw [if_pos hc] at hg
      rw [hi, hs] at hc
      rw [max_eq_right hc]
      have hle := ((row_values (A mc) y hn (hA mc) _).mp ⟨_, (mixRow_mem (A mc) (hA mc) x).1, rfl⟩).1
      have heq := (mixRow_sum (A mc) x).1
      have : ∑ j, -g j * (y j - x j) = w mc *
          (∑ j, mixRow (fun j => (A mc j).a) (fun j => (A mc j).b) x j * y j -
            ∑ j, mixRow (fun j => (A mc j).a) (fun j => (A mc j).b) x j * x j) := by
        rw [← hsum, Finset.mul_sum]
        refine Finset.sum_congr rfl fun j _ => ?_
        rw [← hg, neg_neg]
        change w mc * _ * _ = _
        rw [mul_assoc]
        rfl
      rw [this, heq, ← mul_add]
      apply mul_le_mul_of_nonneg_left _ (hw mc).le
      linarith
    · rw [if_neg hc] at hg
      rw [hi, hs, not_le] at hc
      rw [max_eq_left hc.le]
      have hle := ((row_values (A mc) y hn (hA mc) _).mp ⟨_, (mixRow_mem (A mc) (hA mc) x).2, rfl⟩).2
      have heq := (mixRow_sum (A mc) x).2
      have : ∑ j, -g j * (y j - x j) = w mc *
          (∑ j, mixRow (fun j => (A mc j).b) (fun j => (A mc j).a) x j * x j -
            ∑ j, mixRow (fun j => (A mc j).b) (fun j => (A mc j).a) x j * y j) := by
        rw [← neg_sub, ← hsum, ← Finset.sum_neg_distrib, Finset.mul_sum]
        refine Finset.sum_congr rfl fun j _ => ?_
        rw [← hg, neg_neg]
        change -w mc * mixRow (fun j => (A mc j).b) (fun j => (A mc j).a) x j * _ = _
        ring
      rw [this, heq, ← mul_add]
      apply mul_le_mul_of_nonneg_left _ (hw mc).le
      linarith

/-- C32: `Tol` is concave. -/
theorem C32_tol_concave (hm : 0 < m) (hn : 0 < n) (A : Fin m → Fin n → Iv K) (b : Fin m → Iv K) (w : Fin m → K)
    (hA : ∀ i j, Ordinary (A i j)) (hw : ∀ i, 0 < w i) (x y : Fin n → K) (t : K) (ht0 : 0 ≤ t) (ht1 : t ≤ 1) :
    ∃ vx vy vz, tolValue Rnd.exact A b w x = .ok vx ∧ tolValue Rnd.exact A b w y = .ok vy ∧
      tolValue Rnd.exact A b w (fun j => t * x j + (1 - t) * y j) = .ok vz ∧ t * vx + (1 - t) * vy ≤ vz := by
  obtain ⟨vx, hx, _⟩ := C30_tol_iff_tolerable hm hn A b w x hA hw
  obtain ⟨vy, hy, _⟩ := C30_tol_iff_tolerable hm hn A b w y hA hw
  obtain ⟨f, g, h1, h2⟩ := C33_objective_is_minus_value .tol hm hn A b w (fun j => t * x j + (1 - t) * y j)
    (recData A b w).infA (recData A b w).supA hA
  refine ⟨vx, vy, -f, hx, hy, h2, ?_⟩
  have s1 := C32_tol_supergradient_partial hn A b w hA hw _ x f g vx h1 hx
  have s2 := C32_tol_supergradient_partial hn A b w hA hw _ y f g vy h1 hy
  have e1 : ∑ j, -g j * (x j - (t * x j + (1 - t) * y j)) = (1 - t) * ∑ j, -g j * (x j - y j) := by
    rw [Finset.mul_sum]; exact Finset.sum_congr rfl fun j _ => by ring
  have e2 : ∑ j, -g j * (y j - (t * x j + (1 - t) * y j)) = -t * ∑ j, -g j * (x j - y j) := by
    rw [Finset.mul_sum]; exact Finset.sum_congr rfl fun j _ => by ring
  rw [e1] at s1
  rw [e2] at s2
  have := mul_le_mul_of_nonneg_left s1 ht0
  have := mul_le_mul_of_nonneg_left s2 (sub_nonneg.mpr ht1)
  nlinarith

/-- C32 (full statement, false of the code): what `Tol.maximize` hands to the optimiser is a supergradient. -/
def C32_statement : Prop :=
  ∀ (m n : ℕ) (A : Fin m → Fin n → FIv) (b : Fin m → FIv) (w : Fin m → ℚ) (x y : Fin n → ℚ)
    (d : RecData ℚ m n) (f : ℚ) (g : Fin n → ℚ) (v : ℚ), 0 < n →
    (∀ i j, Ordinary (ivRat (A i j))) → (∀ i, 0 < w i) → optimizeData A b w = .ok d →
    tolCalcfg d x = .ok (f, g) →
    tolValue Rnd.exact (fun i j => ivRat (A i j)) (fun i => ivRat (b i)) w y = .ok v →
    v ≤ -f + ∑ j, -g j * (y j - x j)

/-- The matrix `Shary_system(2, alpha=0.25, beta=0.5)[0]` of `C63_shary_views`. -/
def sharyMat : Fin 2 → Fin 2 → FIv := fun i j =>
  if i = j then ⟨.classical, .int 1, .int 2⟩ else ⟨.classical, .dbl (.fin (-3/4)), .dbl (.fin (1/2))⟩

/-- C32 is false of the code: for the library's own test matrix the optimiser is given a vector that is not a
supergradient, since the endpoint views are truncated to integers. -/
theorem C32_tol_false : ¬ C32_statement := by
  intro h
  have hrm : rowMajor sharyMat = shary2 := by decide +kernel
  have hd : optimizeData sharyMat (fun i => if i = 0 then ⟨.classical, .int 0, .int 10⟩
      else ⟨.classical, .int (-100), .int 100⟩) (fun _ => 1) = .ok
      ((recData (fun i j => ivRat (sharyMat i j)) (fun i => ivRat (if i = 0 then ⟨.classical, .int 0, .int 10⟩
        else ⟨.classical, .int (-100), .int 100⟩)) (fun _ => 1)).withViews
        (viewMat [.int 1, .int 0, .int 0, .int 1]) (viewMat [.int 2, .int 0, .int 0, .int 2])) := by
    rw [optimizeData, hrm, C63_shary_views.1, C63_shary_views.2]
  have hO : ∀ i j, Ordinary (ivRat (sharyMat i j)) := by
    intro i j; unfold Ordinary; revert i j; decide +kernel
  obtain ⟨f, g, h1, _⟩ := C33_objective_is_minus_value .tol (by norm_num) (by norm_num)
    (fun i j => ivRat (sharyMat i j)) (fun i => ivRat (if i = 0 then ⟨.classical, .int 0, .int 10⟩
        else ⟨.classical, .int (-100), .int 100⟩)) (fun _ => 1) (fun _ => 1)
    (viewMat [.int 1, .int 0, .int 0, .int 1]) (viewMat [.int 2, .int 0, .int 0, .int 2]) hO
  have k : (RecFun.tol.calcfg ((recData (fun i j => ivRat (sharyMat i j))
        (fun i => ivRat (if i = 0 then ⟨.classical, .int 0, .int 10⟩
          else ⟨.classical, .int (-100), .int 100⟩)) (fun _ => 1)).withViews
        (viewMat [.int 1, .int 0, .int 0, .int 1]) (viewMat [.int 2, .int 0, .int 0, .int 2])) (fun _ => 1)).map
        (fun r => (r.1, r.2 0, r.2 1)) = .ok (-1/4, -1, 0) := by decide +kernel
  rw [h1] at k
  simp only [Except.map, Except.ok.injEq, Prod.mk.injEq] at k
  have := h 2 2 sharyMat _ (fun _ => 1) (fun _ => 1) (fun j => if j = 0 then 1 else 0) _ f g 1 (by norm_num)
    hO (by simp) hd h1 (by decide +kernel)
  rw [Fin.sum_univ_two, k.1, k.2.1, k.2.2] at this
  norm_num at this

/-- C32, partial, for the matrices whose views are right (C63): float-first ones and all-integer ones. -/
theorem C32_views_right (A : Fin m → Fin n → FIv) (b : Fin m → FIv) (w : Fin m → ℚ)
    (ha : ∃ l, arrA (rowMajor A) = .ok l ∧ l.map Num.val = (rowMajor A).map fun X => X.a.val)
    (hb : ∃ l, arrB (rowMajor A) = .ok l ∧ l.map Num.val = (rowMajor A).map fun X => X.b.val) :
    optimizeData A b w = .ok (recData (fun i j => ivRat (A i j)) (fun i => ivRat (b i)) w) := by
  obtain ⟨la, h1, h2⟩ := ha
  obtain ⟨lb, h3, h4⟩ := hb
  have hv : ∀ p q : Num, p.val = q.val → numRat p = numRat q := by
    have h : ∀ p : Num, numRat p = numRat (.dbl p.val) := by rintro (z | d) <;> rfl
    intro p q e
    rw [h p, h q, e]
  have key : ∀ (l : List Num) (f : FIv → Num), l.map Num.val = (rowMajor A).map (fun X => (f X).val) →
      ∀ i j, (viewMat l i j : ℚ) = numRat (f (A i j)) := by
    intro l f hl i j
    rw [viewMat]
    apply hv
    have hlen : l.length = m * n := by simpa [rowMajor] using congrArg List.length hl
    have hlt : n * (i : ℕ) + j < m * n := by
      have hi := i.isLt
      have hj := j.isLt
      calc n * (i : ℕ) + j < n * i + n := by omega
        _ = n * (i + 1) := by ring
        _ ≤ n * m := Nat.mul_le_mul_left _ hi
        _ = m * n := Nat.mul_comm _ _
    have h5 := congrArg (fun l => l[n * (i : ℕ) + j]?) hl
    simp only [List.getElem?_map, rowMajor, List.getElem?_ofFn, hlt, dif_pos, Option.map_some] at h5
    rw [List.getElem?_eq_getElem (by omega)] at h5
    simp only [Option.map_some, Option.some.injEq] at h5
    rw [List.getD_eq_getElem?_getD, List.getElem?_eq_getElem (by omega), Option.getD_some, h5]
    have hn : 0 < n := j.pos
    have e1 : Fin.divNat ⟨n * (i : ℕ) + j, hlt⟩ = i := Fin.ext (by
      simp only [Fin.divNat]
      rw [Nat.mul_add_div hn, Nat.div_eq_of_lt j.isLt, Nat.add_zero])
    have e2 : Fin.modNat ⟨n * (i : ℕ) + j, hlt⟩ = j := Fin.ext (by
      simp only [Fin.modNat]
      rw [Nat.mul_add_mod, Nat.mod_eq_of_lt j.isLt])
    rw [e1, e2]
  have ea : (viewMat la : Fin m → Fin n → ℚ) = fun i j => (ivRat (A i j)).a := by
    funext i j; exact key la FIv.a h2 i j
  have eb : (viewMat lb : Fin m → Fin n → ℚ) = fun i j => (ivRat (A i j)).b := by
    funext i j; exact key lb FIv.b h4 i j
  rw [optimizeData, h1, h3]
  simp only [recData, RecData.withViews, ea, eb]

end IntvalPy
