import Verif.ModelPenalty
import Verif.PropsRalgb
import Verif.PropsObjects
import Mathlib.Tactic.NormNum
import Mathlib.Tactic.FinCases

/-!
# The default penalty factor (C101, C102)
-/

set_option autoImplicit false
set_option linter.unusedSectionVars false

namespace IntvalPy
open Spec

variable {K : Type*} [Field K] [LinearOrder K] [IsStrictOrderedRing K] {m n : ℕ}

/-- The penalised problem is no better than the constrained one: whatever the functional minus the penalty reaches,
the functional reaches at a point that satisfies the constraint. -/
def ExactPenalty (F : RecFun) (A : Fin m → Fin n → Iv K) (b : Fin m → Iv K) (w : Fin m → K) (rows : Rows K n) (mu : K) :
    Prop :=
  ∀ x v, F.value A b w x = .ok v →
    ∃ y u, RowsOK rows y ∧ F.value A b w y = .ok u ∧ v - linearPenalty rows mu x ≤ u

/-! ## The functionals do not change faster than the entries of the matrix allow -/

theorem abs_row_diff (p q : Fin n → K) (hq : ∀ j, 0 ≤ q j) (x y : Fin n → K) :
    |(∑ j, p j * y j + ∑ j, q j * |y j|) - (∑ j, p j * x j + ∑ j, q j * |x j|)| ≤ ∑ j, (|p j| + q j) * |y j - x j| ∧
    |(∑ j, p j * y j - ∑ j, q j * |y j|) - (∑ j, p j * x j - ∑ j, q j * |x j|)| ≤ ∑ j, (|p j| + q j) * |y j - x j| ∧
    |(∑ j, q j * |y j|) - (∑ j, q j * |x j|)| + |(∑ j, p j * y j) - ∑ j, p j * x j| ≤ ∑ j, (|p j| + q j) * |y j - x j| := by
  have h1 : |∑ j, p j * y j - ∑ j, p j * x j| ≤ ∑ j, |p j| * |y j - x j| := by
    rw [← Finset.sum_sub_distrib]
    refine (Finset.abs_sum_le_sum_abs _ _).trans (Finset.sum_le_sum fun j _ => ?_)
    rw [← mul_sub, abs_mul]
  have h2 : |(∑ j, q j * |y j|) - (∑ j, q j * |x j|)| ≤ ∑ j, q j * |y j - x j| := by
    rw [← Finset.sum_sub_distrib]
    refine (Finset.abs_sum_le_sum_abs _ _).trans (Finset.sum_le_sum fun j _ => ?_)
    rw [← mul_sub, abs_mul, abs_of_nonneg (hq j)]
    exact mul_le_mul_of_nonneg_left (abs_abs_sub_abs_le_abs_sub _ _) (hq j)
  have e : ∑ j, (|p j| + q j) * |y j - x j| = ∑ j, |p j| * |y j - x j| + ∑ j, q j * |y j - x j| := by
    rw [← Finset.sum_add_distrib]
    exact Finset.sum_congr rfl fun j _ => by ring
  rw [e]
  generalize ∑ j, |p j| * |y j - x j| = P at *
  generalize ∑ j, q j * |y j - x j| = Q at *
  generalize ∑ j, p j * y j = a at *
  generalize ∑ j, p j * x j = b at *
  generalize ∑ j, q j * |y j| = c at *
  generalize ∑ j, q j * |x j| = d at *
  rw [abs_le] at h1 h2
  refine ⟨?_, ?_, ?_⟩
  · rw [abs_le]; constructor <;> linarith [h1.1, h1.2, h2.1, h2.2]
  · rw [abs_le]; constructor <;> linarith [h1.1, h1.2, h2.1, h2.2]
  · have : |a - b| ≤ P := abs_le.mpr h1
    have : |c - d| ≤ Q := abs_le.mpr h2
    linarith

theorem mid_rad_mag (X : Iv K) (h : Ordinary X) : |X.mid Rnd.exact| + X.rad Rnd.exact = X.mag := by
  have h1 := mid_sub_rad X
  have h2 := mid_add_rad X
  have hr := rad_nonneg h
  rw [Iv.mag, ← h1, ← h2]
  generalize X.mid Rnd.exact = p at *
  generalize X.rad Rnd.exact = q at *
  rcases le_total 0 p with hp | hp
  · rw [abs_of_nonneg hp, abs_of_nonneg (by linarith : 0 ≤ p + q), max_eq_right]
    rw [abs_le]; constructor <;> linarith
  · rw [abs_of_nonpos hp, abs_of_nonpos (by linarith : p - q ≤ 0), max_eq_left]
    · ring
    · rw [abs_le]; constructor <;> linarith

/-- The constituents of the three functionals. -/
def RecFun.arr (F : RecFun) (d : RecData K m n) (x : Fin n → K) (i : Fin m) : K :=
  match F with
  | .tol => tolArr d x i
  | .uni => uniArr d x i
  | .uss => ussArr d x i

theorem value_arr (F : RecFun) (hn : 0 < n) (A : Fin m → Fin n → Iv K) (b : Fin m → Iv K) (w : Fin m → K) (x : Fin n → K)
    (hA : ∀ i j, Ordinary (A i j)) : F.value A b w x = npAmin (List.ofFn (F.arr (recData A b w) x)) := by
  cases F
  · exact tolValue_eq hn A b w x hA
  · exact uniValue_eq hn A b w x hA
  · exact ussValue_eq A b w x

theorem uniMig_eq {s t : K} (h : s ≤ t) : uniMig s t = max 0 (max s (-t)) := by
  rw [uniMig]
  split_ifs with h0
  · rcases mul_nonpos_iff.mp h0 with h1 | h1
    · have : s = 0 ∨ t = 0 := by
        rcases eq_or_lt_of_le h1.1 with h2 | h2
        · exact Or.inl h2.symm
        · exact absurd (h.trans h1.2) (not_le.mpr h2)
      rw [max_eq_left]
      rcases this with h2 | h2
      · exact max_le h2.le (by linarith)
      · exact max_le (by linarith) (by linarith)
    · exact (max_eq_left (max_le h1.1 (by linarith))).symm
  · push Not at h0
    rcases pos_and_pos_or_neg_and_neg_of_mul_pos h0 with h1 | h1
    · rw [abs_of_pos h1.1, abs_of_pos h1.2, min_eq_left h, max_eq_left (by linarith : -t ≤ s), max_eq_right h1.1.le]
    · rw [abs_of_neg h1.1, abs_of_neg h1.2, min_eq_right (by linarith), max_eq_right (by linarith : s ≤ -t),
        max_eq_right (by linarith)]

theorem arr_lipschitz (F : RecFun) (A : Fin m → Fin n → Iv K) (b : Fin m → Iv K) (w : Fin m → K)
    (hw : ∀ i, 0 ≤ w i) (hw1 : ∀ i, w i ≤ 1) (hA : ∀ i j, Ordinary (A i j)) (M : K) (hM : ∀ i j, (A i j).mag ≤ M)
    (x y : Fin n → K) (i : Fin m) :
    F.arr (recData A b w) x i - M * ∑ j, |y j - x j| ≤ F.arr (recData A b w) y i := by
  obtain ⟨h1, h2, h3⟩ := abs_row_diff (fun j => (A i j).mid Rnd.exact) (fun j => (A i j).rad Rnd.exact)
    (fun j => rad_nonneg (hA i j)) x y
  have hD : ∑ j, (|(A i j).mid Rnd.exact| + (A i j).rad Rnd.exact) * |y j - x j| ≤ M * ∑ j, |y j - x j| := by
    rw [Finset.mul_sum]
    refine Finset.sum_le_sum fun j _ => mul_le_mul_of_nonneg_right ?_ (abs_nonneg _)
    rw [mid_rad_mag _ (hA i j)]
    exact hM i j
  have rx : 0 ≤ ∑ j, (A i j).rad Rnd.exact * |x j| :=
    Finset.sum_nonneg fun j _ => mul_nonneg (rad_nonneg (hA i j)) (abs_nonneg _)
  have ry : 0 ≤ ∑ j, (A i j).rad Rnd.exact * |y j| :=
    Finset.sum_nonneg fun j _ => mul_nonneg (rad_nonneg (hA i j)) (abs_nonneg _)
  replace h1 := h1.trans hD
  replace h2 := h2.trans hD
  replace h3 := h3.trans hD
  clear hD
  have hw0 := hw i
  have hwi := hw1 i
  have key : ∀ s t : K, s - M * ∑ j, |y j - x j| ≤ t → w i * s - M * ∑ j, |y j - x j| ≤ w i * t := by
    intro s t h
    have hL : 0 ≤ M * ∑ j, |y j - x j| := (abs_nonneg _).trans h1
    nlinarith [mul_le_mul_of_nonneg_left h hw0, mul_le_mul_of_nonneg_right hwi hL]
  cases F
  · simp only [RecFun.arr, tolArr, infs, sups, amx, arx, recData]
    apply key
    generalize M * ∑ j, |y j - x j| = L at *
    rw [abs_le] at h1 h2
    generalize ∑ j, (A i j).mid Rnd.exact * y j = a at *
    generalize ∑ j, (A i j).mid Rnd.exact * x j = c at *
    generalize ∑ j, (A i j).rad Rnd.exact * |y j| = r at *
    generalize ∑ j, (A i j).rad Rnd.exact * |x j| = s at *
    have l1 := le_max_left |(b i).mid Rnd.exact - (c + s)| |(b i).mid Rnd.exact - (c - s)|
    have l2 := le_max_right |(b i).mid Rnd.exact - (c + s)| |(b i).mid Rnd.exact - (c - s)|
    generalize max |(b i).mid Rnd.exact - (c + s)| |(b i).mid Rnd.exact - (c - s)| = T at *
    have : max |(b i).mid Rnd.exact - (a + r)| |(b i).mid Rnd.exact - (a - r)| ≤ T + L := by
      rw [abs_le] at l1 l2
      refine max_le ?_ ?_ <;> rw [abs_le] <;> constructor <;> linarith [l1.1, l1.2, l2.1, l2.2, h1.1, h1.2, h2.1, h2.2]
    linarith
  · simp only [RecFun.arr, uniArr, infs, sups, amx, arx, recData]
    apply key
    rw [uniMig_eq (by linarith), uniMig_eq (by linarith)]
    have hL : 0 ≤ M * ∑ j, |y j - x j| := (abs_nonneg _).trans h1
    generalize M * ∑ j, |y j - x j| = L at *
    rw [abs_le] at h1 h2
    generalize ∑ j, (A i j).mid Rnd.exact * y j = a at *
    generalize ∑ j, (A i j).mid Rnd.exact * x j = c at *
    generalize ∑ j, (A i j).rad Rnd.exact * |y j| = r at *
    generalize ∑ j, (A i j).rad Rnd.exact * |x j| = s at *
    have l0 := le_max_left 0 (max ((b i).mid Rnd.exact - (c + s)) (-((b i).mid Rnd.exact - (c - s))))
    have l1 := (le_max_left _ _).trans (le_max_right 0 (max ((b i).mid Rnd.exact - (c + s)) (-((b i).mid Rnd.exact - (c - s)))))
    have l2 := (le_max_right _ _).trans (le_max_right 0 (max ((b i).mid Rnd.exact - (c + s)) (-((b i).mid Rnd.exact - (c - s)))))
    generalize max 0 (max ((b i).mid Rnd.exact - (c + s)) (-((b i).mid Rnd.exact - (c - s)))) = T at *
    have : max 0 (max ((b i).mid Rnd.exact - (a + r)) (-((b i).mid Rnd.exact - (a - r)))) ≤ T + L := by
      refine max_le (by linarith) (max_le ?_ ?_) <;> linarith [h1.1, h1.2, h2.1, h2.2]
    linarith
  · simp only [RecFun.arr, ussArr, amx, arx, recData]
    apply key
    generalize M * ∑ j, |y j - x j| = L at *
    generalize ∑ j, (A i j).mid Rnd.exact * y j = a at *
    generalize ∑ j, (A i j).mid Rnd.exact * x j = c at *
    generalize ∑ j, (A i j).rad Rnd.exact * |y j| = r at *
    generalize ∑ j, (A i j).rad Rnd.exact * |x j| = s at *
    have t1 := neg_abs_le (r - s)
    have t2 : |(b i).mid Rnd.exact - a| ≤ |(b i).mid Rnd.exact - c| + |a - c| := by
      have := abs_sub_le ((b i).mid Rnd.exact) c a
      rwa [abs_sub_comm c a] at this
    linarith

/-- The functionals with weights at most one change by at most `M` times the 1-norm of the step, `M` a bound of the
magnitudes of the matrix. -/
theorem value_lipschitz (F : RecFun) (hm : 0 < m) (hn : 0 < n) (A : Fin m → Fin n → Iv K) (b : Fin m → Iv K)
    (w : Fin m → K) (hw : ∀ i, 0 ≤ w i) (hw1 : ∀ i, w i ≤ 1) (hA : ∀ i j, Ordinary (A i j)) (M : K)
    (hM : ∀ i j, (A i j).mag ≤ M) (x y : Fin n → K) (v : K) (hv : F.value A b w x = .ok v) :
    ∃ u, F.value A b w y = .ok u ∧ v - M * ∑ j, |y j - x j| ≤ u := by
  rw [value_arr F hn A b w x hA] at hv
  rw [value_arr F hn A b w y hA]
  obtain ⟨u, h1, ⟨i, h2⟩, _⟩ := npAmin_ofFn hm (F.arr (recData A b w) y)
  refine ⟨u, h1, ?_⟩
  have h3 := (npAmin_spec hv).2 _ ((List.mem_ofFn' _ _).mpr ⟨i, rfl⟩)
  have := arr_lipschitz F A b w hw hw1 hA M hM x y i
  rw [h2]
  linarith

/-! ## Reaching the constraint -/

/-- By how much a row is violated. -/
def excess (r : (Fin n → K) × K) (x : Fin n → K) : K := if r.2 < dotF r.1 x then dotF r.1 x - r.2 else 0

theorem excess_mono (r : (Fin n → K) × K) {x y : Fin n → K} (h : dotF r.1 y ≤ dotF r.1 x) : excess r y ≤ excess r x := by
  unfold excess
  split_ifs <;> linarith

theorem dotF_update (c x : Fin n → K) (j : Fin n) (t : K) :
    dotF c (Function.update x j (x j - t)) = dotF c x - c j * t := by
  unfold dotF
  have h : ∀ k, c k * Function.update x j (x j - t) k = c k * x k - if k = j then c j * t else 0 := by
    intro k
    by_cases hk : k = j
    · subst hk
      rw [Function.update_self, if_pos rfl]
      ring
    · rw [Function.update_of_ne hk, if_neg hk, sub_zero]
  rw [Finset.sum_congr rfl fun k _ => h k, Finset.sum_sub_distrib, Finset.sum_ite_eq' Finset.univ j]
  simp

theorem sum_abs_update (x z : Fin n → K) (j : Fin n) (t : K) :
    ∑ k, |Function.update x j (x j - t) k - z k| ≤ ∑ k, |x k - z k| + |t| := by
  have h : ∀ k, |Function.update x j (x j - t) k - z k| ≤ |x k - z k| + if k = j then |t| else 0 := by
    intro k
    by_cases hk : k = j
    · subst hk
      rw [Function.update_self, if_pos rfl]
      have := abs_sub (x k - z k) t
      rwa [show x k - t - z k = x k - z k - t by ring]
    · rw [Function.update_of_ne hk, if_neg hk, add_zero]
  refine (Finset.sum_le_sum fun k _ => h k).trans ?_
  rw [Finset.sum_add_distrib, Finset.sum_ite_eq' Finset.univ j]
  simp

theorem sum_split_le {l : List ((Fin n → K) × K)} {x y : Fin n → K} (h : ∀ r ∈ l, excess r y ≤ excess r x)
    (r : (Fin n → K) × K) (hr : r ∈ l) :
    (l.map fun r => excess r y).sum + (excess r x - excess r y) ≤ (l.map fun r => excess r x).sum := by
  induction l with
  | nil => cases hr
  | cons s l ih =>
    simp only [List.map_cons, List.sum_cons]
    have hs := h s (by simp)
    have hl : (l.map fun r => excess r y).sum ≤ (l.map fun r => excess r x).sum :=
      List.sum_le_sum fun r hr => h r (by simp [hr])
    rcases List.mem_cons.mp hr with rfl | hr
    · linarith
    · have := ih (fun r hr => h r (by simp [hr])) hr
      linarith

/-- When the coefficients of each variable have one sign, the constraint can be reached row by row, moving one
variable at a time; each move costs at most what it saves in the penalty. -/
theorem reach (rows : Rows K n) (mu M : K) (hmu : 0 ≤ mu) (hM0 : 0 ≤ M)
    (hs : ∀ j, (∀ r ∈ rows, 0 ≤ r.1 j) ∨ (∀ r ∈ rows, r.1 j ≤ 0)) (hz : ∀ r ∈ rows, ∃ j, r.1 j ≠ 0)
    (hM : ∀ r ∈ rows, ∀ j, r.1 j ≠ 0 → M ≤ mu * |r.1 j|) (x : Fin n → K) (l : Rows K n) (hl : ∀ r ∈ l, r ∈ rows) :
    ∃ y, RowsOK l y ∧ (∀ r ∈ rows, dotF r.1 y ≤ dotF r.1 x) ∧
      M * ∑ j, |y j - x j| + mu * (rows.map fun r => excess r y).sum ≤ mu * (rows.map fun r => excess r x).sum := by
  induction l with
  | nil => exact ⟨x, by simp [RowsOK], fun r _ => le_refl _, by simp⟩
  | cons r l ih =>
    obtain ⟨y, h1, h2, h3⟩ := ih fun r hr => hl r (by simp [hr])
    have hr := hl r (by simp)
    by_cases hok : dotF r.1 y ≤ r.2
    · refine ⟨y, ?_, h2, h3⟩
      intro s hs
      rcases List.mem_cons.mp hs with rfl | hs
      · exact hok
      · exact h1 s hs
    · obtain ⟨j, hj⟩ := hz r hr
      set t := (dotF r.1 y - r.2) / r.1 j with ht
      have hpos : 0 < dotF r.1 y - r.2 := by linarith [not_le.mp hok]
      have hsign : ∀ s ∈ rows, 0 ≤ s.1 j * t := by
        intro s hsr
        rcases hs j with h | h
        · exact mul_nonneg (h s hsr) (div_nonneg hpos.le (h r hr))
        · exact mul_nonneg_of_nonpos_of_nonpos (h s hsr) (div_nonpos_of_nonneg_of_nonpos hpos.le (h r hr))
      have hdec : ∀ s ∈ rows, dotF s.1 (Function.update y j (y j - t)) ≤ dotF s.1 y := by
        intro s hsr
        rw [dotF_update]
        linarith [hsign s hsr]
      have hnew : dotF r.1 (Function.update y j (y j - t)) = r.2 := by
        rw [dotF_update, ht, mul_div_cancel₀ _ hj]
        ring
      refine ⟨Function.update y j (y j - t), ?_, fun s hsr => (hdec s hsr).trans (h2 s hsr), ?_⟩
      · intro s hsl
        rcases List.mem_cons.mp hsl with rfl | hsl
        · exact hnew.le
        · exact (hdec s (hl s (by simp [hsl]))).trans (h1 s hsl)
      · have q1 := sum_abs_update y x j t
        have q2 := sum_split_le (fun s hsr => excess_mono s (hdec s hsr)) r hr
        have q3 : excess r (Function.update y j (y j - t)) = 0 := by
          rw [excess, if_neg (by rw [hnew]; exact lt_irrefl _)]
        have q4 : excess r y = dotF r.1 y - r.2 := by rw [excess, if_pos (not_le.mp hok)]
        rw [q3, q4, sub_zero] at q2
        have q5 : M * |t| ≤ mu * (dotF r.1 y - r.2) := by
          have := mul_le_mul_of_nonneg_right (hM r hr j hj) (abs_nonneg t)
          rw [mul_assoc, ← abs_mul, ht, mul_div_cancel₀ _ hj, abs_of_pos hpos] at this
          exact this
        have q6 := mul_le_mul_of_nonneg_left q2 hmu
        rw [mul_add] at q6
        have q7 := mul_le_mul_of_nonneg_left q1 hM0
        rw [mul_add] at q7
        linarith

/-- The denominator of the default factor is at most every nonzero coefficient. -/
theorem findMu_le (rows : Rows K n) (M v : K) (hM : 0 ≤ M) (h : findMu rows M = .ok (.fin v)) :
    0 ≤ v ∧ ∀ r ∈ rows, ∀ j, r.1 j ≠ 0 → M ≤ v * |r.1 j| := by
  rw [findMu] at h
  split at h
  · cases h
  · rename_i d hd
    by_cases h0 : d = 0
    · rw [if_pos h0] at h
      split_ifs at h <;> cases h
    rw [if_neg h0] at h
    cases h
    have hd0 : 0 < d := by
      refine lt_of_le_of_ne ?_ (Ne.symm h0)
      obtain ⟨i, _, hi⟩ := List.mem_filterMap.mp (npAmin_spec hd).1
      rw [muColumn] at hi
      dsimp only at hi
      split_ifs at hi
      split at hi
      · rename_i w hw
        cases hi
        obtain ⟨y, _, hy⟩ := List.mem_map.mp (List.mem_of_mem_tail (npAmin_spec hw).1)
        rw [← hy]
        exact abs_nonneg _
      · cases hi
    refine ⟨div_nonneg hM hd0.le, fun r hr j hj => ?_⟩
    have m1 : r.1 j ∈ (rows.map fun r => r.1 j).filter (· ≠ 0) :=
      List.mem_filter.mpr ⟨List.mem_map.mpr ⟨r, hr, rfl⟩, by simpa using hj⟩
    obtain ⟨x, p1, o1, e1⟩ := pick_one _ _ m1
    obtain ⟨c, hc, _, hle⟩ := muColumn_le _ x p1 o1
    rw [e1] at hle
    have := (npAmin_spec hd).2 c (List.mem_filterMap.mpr ⟨j, List.mem_finRange j, hc⟩)
    rw [div_mul_eq_mul_div, le_div_iff₀ hd0]
    exact mul_le_mul_of_nonneg_left (this.trans hle) hM

theorem maxMag_spec (A : Fin m → Fin n → Iv K) (M : K) (h : maxMag A = .ok M) :
    0 ≤ M ∧ ∀ i j, (A i j).mag ≤ M := by
  obtain ⟨h1, h2⟩ := npAmax_spec h
  constructor
  · obtain ⟨k, hk⟩ := (List.mem_ofFn' _ _).mp h1
    rw [← hk]
    exact (abs_nonneg _).trans (le_max_left _ _)
  · intro i j
    refine h2 _ ?_
    rw [rowMajor, List.mem_ofFn']
    refine ⟨finProdFinEquiv (i, j), ?_⟩
    have := finProdFinEquiv.symm_apply_apply (i, j)
    rw [finProdFinEquiv_symm_apply] at this
    simp only [Prod.mk.injEq] at this
    simp only [this.1, this.2]

/-! ## C101 -/

/-- C101 (full statement, false of the code): with the factor computed by the package, the maximum of the penalised
functional is the maximum over the points that satisfy the constraint. -/
def C101_statement (K : Type*) [Field K] [LinearOrder K] [IsStrictOrderedRing K] : Prop :=
  ∀ (F : RecFun) (m n p : ℕ) (A : Fin m → Fin n → Iv K) (b : Fin m → Iv K) (w : Fin m → K) (C : Fin p → Fin n → K)
    (lb ub : Option (Fin p → Bound K)) (rows : Rows K n) (M mu : K), 0 < m → 0 < n → (∀ i j, Ordinary (A i j)) →
    (∀ i, Ordinary (b i)) → (∀ i, 0 < w i) → linearConstraint C lb ub = .ok (some rows) → (∃ z, RowsOK rows z) →
    maxMag A = .ok M → findMu rows M = .ok (.fin mu) → ExactPenalty F A b w rows mu

/-- The constraint `x + y <= 0`, `-3 x - 2 y <= 0`. -/
def penC : Fin 2 → Fin 2 → ℚ := ![![1, 1], ![-3, -2]]
/-- The equation `-x + y = 5`. -/
def penA : Fin 1 → Fin 2 → Iv ℚ := fun _ => ![⟨.classical, -1, -1⟩, ⟨.classical, 1, 1⟩]

/-- C101 is false of the code, already for unit weights: for `-x + y = 5` under `x + y <= 0`, `-3 x - 2 y <= 0` the
default factor is 1, the penalised functional is `-1` at the forbidden point `(-2, 3)`, and at most `-5` at every
allowed point. -/
theorem C101_exact_false : ¬ C101_statement ℚ ∧
    tolValue Rnd.exact penA (fun _ => ⟨.classical, 5, 5⟩) (fun _ => 1) ![-2, 3] = .ok 0 ∧
    linearPenalty [(![1, 1], 0), (![-3, -2], 0)] 1 (![-2, 3] : Fin 2 → ℚ) = 1 ∧
    ∀ y u, RowsOK [(![1, 1], 0), (![-3, -2], 0)] y →
      tolValue Rnd.exact penA (fun _ => ⟨.classical, 5, 5⟩) (fun _ => 1) y = .ok u → u ≤ -5 := by
  have hA : ∀ i j, Ordinary (penA i j) := by intro i j; unfold Ordinary; revert i j; decide +kernel
  have e1 : tolValue Rnd.exact penA (fun _ => ⟨.classical, 5, 5⟩) (fun _ => 1) ![-2, 3] = .ok 0 := by decide +kernel
  have e2 : linearPenalty [(![1, 1], 0), (![-3, -2], 0)] 1 (![-2, 3] : Fin 2 → ℚ) = 1 := by decide +kernel
  have e3 : ∀ y u, RowsOK [(![1, 1], 0), (![-3, -2], 0)] y →
      tolValue Rnd.exact penA (fun _ => ⟨.classical, 5, 5⟩) (fun _ => 1) y = .ok u → u ≤ -5 := by
    intro y u hy hu
    rw [tolValue_eq (by norm_num) _ _ _ _ hA] at hu
    have h1 := (npAmin_spec hu).2 _ ((List.mem_ofFn' _ _).mpr ⟨0, rfl⟩)
    have h2 := hy _ (List.mem_cons_self)
    have h3 := hy _ (List.mem_cons_of_mem _ List.mem_cons_self)
    simp only [dotF, Fin.sum_univ_two, Matrix.cons_val_zero, Matrix.cons_val_one] at h2 h3
    simp only [tolArr, infs, sups, amx, arx, recData, penA, Iv.mid, Iv.rad, Iv.wid, Rnd.exact_nr, id, Fin.sum_univ_two,
      Matrix.cons_val_zero, Matrix.cons_val_one] at h1
    norm_num at h1
    have h4 := le_abs_self (5 - (-y 0 + y 1))
    linarith
  refine ⟨fun h => ?_, e1, e2, e3⟩
  obtain ⟨y, u, h1, h2, h3⟩ := h .tol 1 2 2 penA (fun _ => ⟨.classical, 5, 5⟩) (fun _ => 1) penC none (some fun _ => .fin 0)
    [(![1, 1], 0), (![-3, -2], 0)] 1 1 (by norm_num) (by norm_num) hA (fun _ => ⟨rfl, le_refl _⟩) (fun _ => one_pos)
    (by decide +kernel) ⟨fun _ => 0, by unfold RowsOK dotF; decide +kernel⟩ (by decide +kernel) (by decide +kernel) ![-2, 3] 0 e1
  have := e3 y u h1 h2
  rw [e2] at h3
  linarith

/-- The weights do not enter the default factor: for `x = 10` with weight 2 under `x <= 0` (one row, one sign) the
factor is 1, the penalised functional is `-10` at the forbidden point `10` and at most `-20` at every allowed point. -/
theorem C101_weights_false :
    maxMag (fun _ _ => ⟨.classical, 1, 1⟩ : Fin 1 → Fin 1 → Iv ℚ) = .ok 1 ∧
    findMu ([(fun _ => 1, 0)] : Rows ℚ 1) 1 = .ok (.fin 1) ∧
    ¬ ExactPenalty .tol (fun _ _ => ⟨.classical, 1, 1⟩ : Fin 1 → Fin 1 → Iv ℚ) (fun _ => ⟨.classical, 10, 10⟩) (fun _ => 2)
      [(fun _ => 1, 0)] 1 := by
  refine ⟨by decide +kernel, by decide +kernel, fun h => ?_⟩
  obtain ⟨y, u, h1, h2, h3⟩ := h (fun _ => 10) 0 (by decide +kernel)
  have e2 : linearPenalty ([(fun _ => 1, 0)] : Rows ℚ 1) 1 (fun _ => 10) = 10 := by decide +kernel
  rw [e2] at h3
  rw [RecFun.value, tolValue_eq (by norm_num) _ _ _ _ (fun _ _ => ⟨rfl, le_refl _⟩)] at h2
  have h4 := (npAmin_spec h2).2 _ ((List.mem_ofFn' _ _).mpr ⟨0, rfl⟩)
  have h5 := h1 _ (List.mem_cons_self)
  simp only [dotF, Fin.sum_univ_one, Fin.isValue, one_mul] at h5
  simp only [tolArr, infs, sups, amx, arx, recData, Iv.mid, Iv.rad, Iv.wid, Rnd.exact_nr, id, Fin.sum_univ_one] at h4
  norm_num at h4
  have h6 := le_abs_self (10 - y 0)
  linarith

/-- C101, partial: exact when the coefficients of each variable in the rows `C x <= b` have one sign (for instance
one-sided bounds of single variables, or a nonnegative matrix with upper bounds) and no weight exceeds one.
Missing: coefficients of both signs (`C101_exact_false`) and larger weights (`C101_weights_false`). -/
theorem C101_exact_partial (F : RecFun) (hm : 0 < m) (hn : 0 < n) (A : Fin m → Fin n → Iv K) (b : Fin m → Iv K)
    (w : Fin m → K) (rows : Rows K n) (M mu : K) (hA : ∀ i j, Ordinary (A i j)) (hw : ∀ i, 0 ≤ w i) (hw1 : ∀ i, w i ≤ 1)
    (hs : ∀ j, (∀ r ∈ rows, 0 ≤ r.1 j) ∨ (∀ r ∈ rows, r.1 j ≤ 0)) (hz : ∀ r ∈ rows, ∃ j, r.1 j ≠ 0)
    (hM : maxMag A = .ok M) (hmu : findMu rows M = .ok (.fin mu)) : ExactPenalty F A b w rows mu := by
  intro x v hv
  obtain ⟨hM0, hM1⟩ := maxMag_spec A M hM
  obtain ⟨hmu0, hmu1⟩ := findMu_le rows M mu hM0 hmu
  obtain ⟨y, h1, _, h3⟩ := reach rows mu M hmu0 hM0 hs hz hmu1 x rows fun r hr => hr
  obtain ⟨u, h4, h5⟩ := value_lipschitz F hm hn A b w hw hw1 hA M hM1 x y v hv
  refine ⟨y, u, h1, h4, ?_⟩
  have h6 : 0 ≤ mu * (rows.map fun r => excess r y).sum := mul_nonneg hmu0 (sum_excess rows y).1
  have h7 : linearPenalty rows mu x = mu * (rows.map fun r => excess r x).sum := rfl
  rw [h7]
  linarith

/-- With any factor larger than the default one, forbidden points are strictly worse than some allowed point, so every
maximiser of the penalised functional satisfies the constraint. -/
theorem C101_strict_partial (F : RecFun) (hm : 0 < m) (hn : 0 < n) (A : Fin m → Fin n → Iv K) (b : Fin m → Iv K)
    (w : Fin m → K) (rows : Rows K n) (M mu mu' : K) (hA : ∀ i j, Ordinary (A i j)) (hw : ∀ i, 0 ≤ w i)
    (hw1 : ∀ i, w i ≤ 1) (hs : ∀ j, (∀ r ∈ rows, 0 ≤ r.1 j) ∨ (∀ r ∈ rows, r.1 j ≤ 0))
    (hz : ∀ r ∈ rows, ∃ j, r.1 j ≠ 0) (hM : maxMag A = .ok M) (hmu : findMu rows M = .ok (.fin mu)) (hlt : mu < mu')
    (x : Fin n → K) (hx : ¬ RowsOK rows x) (v : K) (hv : F.value A b w x = .ok v) :
    ∃ y u, RowsOK rows y ∧ F.value A b w y = .ok u ∧ v - linearPenalty rows mu' x < u := by
  obtain ⟨y, u, h1, h2, h3⟩ := C101_exact_partial F hm hn A b w rows M mu hA hw hw1 hs hz hM hmu x v hv
  refine ⟨y, u, h1, h2, lt_of_lt_of_le ?_ h3⟩
  obtain ⟨p1, p2⟩ := sum_excess rows x
  have h4 := lt_of_le_of_ne p1 fun h => hx (p2.mp h.symm)
  have := mul_lt_mul_of_pos_right hlt h4
  unfold linearPenalty
  linarith

/-- The hypotheses hold for `x = 10` under `x <= 0` with unit weight: the factor is 1. -/
example : (∀ i j, Ordinary ((fun _ _ => ⟨.classical, 1, 1⟩ : Fin 1 → Fin 1 → Iv ℚ) i j)) ∧
    (∀ r ∈ ([(fun _ => 1, 0)] : Rows ℚ 1), ∃ j, r.1 j ≠ 0) ∧
    maxMag (fun _ _ => ⟨.classical, 1, 1⟩ : Fin 1 → Fin 1 → Iv ℚ) = .ok 1 ∧
    findMu ([(fun _ => 1, 0)] : Rows ℚ 1) 1 = .ok (.fin 1) ∧ ¬ RowsOK ([(fun _ => 1, 0)] : Rows ℚ 1) (fun _ => 10) :=
  ⟨fun _ _ => ⟨rfl, le_refl _⟩, by decide +kernel, by decide +kernel, by decide +kernel,
    by unfold RowsOK dotF; decide +kernel⟩

/-! ## C102 -/

/-- C102 (full statement, false of the code): what `maximize` returns with a constraint object does not depend on an
earlier call with the same object. -/
def C102_statement (K : Type*) [Field K] [LinearOrder K] : Prop :=
  ∀ (F G : RecFun) (m k n : ℕ) (P : RalgPar K n) (big : K) (A : Fin m → Fin n → Iv K) (b : Fin m → Iv K) (w : Fin m → K)
    (A' : Fin k → Fin n → Iv K) (b' : Fin k → Iv K) (w' : Fin k → K) (c c1 : LinCon K n) (x0 x1 : Fin n → K)
    (o o' : RalgOut K n) (c2 c2' : LinCon K n) (o1 : RalgOut K n),
    G.maximizeCon P big A' b' w' c x1 = .ok (o1, c1) →
    F.maximizeCon P big A b w c1 x0 = .ok (o, c2) → F.maximizeCon P big A b w c x0 = .ok (o', c2') →
    o.fr = o'.fr ∧ o.xr = o'.xr

theorem maximizeCon_prepare {F : RecFun} {P : RalgPar K n} {big : K} {A : Fin m → Fin n → Iv K} {b : Fin m → Iv K}
    {w : Fin m → K} {c c' : LinCon K n} {x : Fin n → K} {o : RalgOut K n}
    (h : F.maximizeCon P big A b w c x = .ok (o, c')) : c.prepare A = .ok c' := by
  unfold RecFun.maximizeCon at h
  split at h
  · cases h
  · rename_i d hd
    split at h
    · split at h
      · cases h
      · cases h
        exact hd
    · cases h

theorem prepare_spec (A : Fin m → Fin n → Iv K) (c c' : LinCon K n) (h : c.prepare A = .ok c') :
    c'.rows = c.rows ∧ c'.mu ≠ none ∧ (c.mu ≠ none → c' = c) := by
  unfold LinCon.prepare at h
  cases hc : c.mu with
  | some v =>
    rw [hc] at h
    cases h
    exact ⟨rfl, by rw [hc]; simp, fun _ => rfl⟩
  | none =>
    rw [hc] at h
    dsimp only at h
    split at h
    · cases h
    · split at h
      · cases h
      · cases h
        exact ⟨rfl, by simp, fun h => absurd rfl h⟩

/-- The factor is decided by the first call: afterwards the object is never changed. -/
theorem C102_first_call (F G : RecFun) {k : ℕ} (P Q : RalgPar K n) (big : K) (A : Fin m → Fin n → Iv K) (b : Fin m → Iv K)
    (w : Fin m → K) (A' : Fin k → Fin n → Iv K) (b' : Fin k → Iv K) (w' : Fin k → K) (c c1 c2 : LinCon K n)
    (x0 x1 : Fin n → K) (o o1 : RalgOut K n) (h1 : G.maximizeCon Q big A' b' w' c x1 = .ok (o1, c1))
    (h2 : F.maximizeCon P big A b w c1 x0 = .ok (o, c2)) : c2 = c1 ∧ c1.rows = c.rows ∧ c1.mu ≠ none ∧
      (c.mu ≠ none → c1 = c) := by
  obtain ⟨q1, q2, q3⟩ := prepare_spec A' c c1 (maximizeCon_prepare h1)
  obtain ⟨_, _, r3⟩ := prepare_spec A c1 c2 (maximizeCon_prepare h2)
  exact ⟨r3 q2, q1, q2, q3⟩

/-- The outcome for `a x = a` (one unknown, unit weight) under `x <= 0`: value, point and the factor afterwards. -/
def penRun (a : ℚ) (mu : Option (Mu ℚ)) : Option (ℚ × ℚ × Option (Mu ℚ)) :=
  match RecFun.tol.maximizeCon demoPar 1000000 (fun _ _ => ⟨.classical, a, a⟩ : Fin 1 → Fin 1 → Iv ℚ)
    (fun _ => ⟨.classical, a, a⟩) (fun _ => 1) ⟨[(fun _ => 1, 0)], mu⟩ (fun _ => 0) with
  | .ok (o, c) => some (o.fr, o.xr 0, c.mu)
  | .error _ => none

/-- C102 is false of the code: `100 x = 100` under `x <= 0` with a constraint object used before for `x = 1`.  The second
call keeps the factor 1 and returns the forbidden point 1 with value `-1`; with a fresh object the factor is 100 and the
value returned is that of the allowed point 0. -/
theorem C102_reuse_false : penRun 1 none = some (-1, 0, some (.fin 1)) ∧ penRun 100 (some (.fin 1)) = some (-1, 1, some (.fin 1)) ∧
    penRun 100 none = some (-100, 0, some (.fin 100)) ∧ ¬ C102_statement ℚ := by
  have e1 : penRun 1 none = some (-1, 0, some (.fin 1)) := by decide +kernel
  have e2 : penRun 100 (some (.fin 1)) = some (-1, 1, some (.fin 1)) := by decide +kernel
  have e3 : penRun 100 none = some (-100, 0, some (.fin 100)) := by decide +kernel
  refine ⟨e1, e2, e3, fun h => ?_⟩
  unfold penRun at e1 e2 e3
  split at e1
  · rename_i o1 c1 r1
    split at e2
    · rename_i o2 c2 r2
      split at e3
      · rename_i o3 c3 r3
        simp only [Option.some.injEq, Prod.mk.injEq] at e1 e2 e3
        have hc : c1 = ⟨[(fun _ => 1, 0)], some (.fin 1)⟩ := by
          have hr : c1.rows = [(fun _ => 1, 0)] := (prepare_spec _ _ _ (maximizeCon_prepare r1)).1
          cases c1
          simp only at hr e1
          rw [hr, e1.2.2]
        rw [← hc] at r2
        have := (h .tol .tol 1 1 1 demoPar 1000000 _ _ _ _ _ _ _ _ _ _ _ _ _ _ _ r1 r2 r3).1
        rw [e2.1, e3.1] at this
        norm_num at this
      · cases e3
    · cases e2
  · cases e1

/-- C102, partial: independent when the object was created with a factor, and when the matrices of the two calls have
the same largest magnitude.
Missing: other sequences of calls, see `C102_reuse_false`. -/
theorem C102_reuse_partial (F G : RecFun) {k : ℕ} (P Q : RalgPar K n) (big : K) (A : Fin m → Fin n → Iv K) (b : Fin m → Iv K)
    (w : Fin m → K) (A' : Fin k → Fin n → Iv K) (b' : Fin k → Iv K) (w' : Fin k → K) (c c1 : LinCon K n)
    (x0 x1 : Fin n → K) (o1 : RalgOut K n) (h1 : G.maximizeCon Q big A' b' w' c x1 = .ok (o1, c1))
    (h : c.mu ≠ none ∨ maxMag A' = maxMag A) :
    F.maximizeCon P big A b w c1 x0 = F.maximizeCon P big A b w c x0 := by
  have hp : c.prepare A' = .ok c1 := maximizeCon_prepare h1
  have e : c1.prepare A = c.prepare A := by
    unfold LinCon.prepare at hp ⊢
    cases hc : c.mu with
    | some v =>
      rw [hc] at hp
      cases hp
      rw [hc]
    | none =>
      rcases h with h | h
      · exact absurd hc h
      rw [hc] at hp
      dsimp only at hp ⊢
      rw [h] at hp
      rw [← hp]
      split at hp
      · cases hp
      · split at hp
        · cases hp
        · cases hp
          simp only
  unfold RecFun.maximizeCon
  rw [e]

/-- The hypotheses hold: a call with an object created with the factor 5, and two calls with one matrix. -/
example : (penRun 1 (some (.fin 5))).isSome = true ∧ (penRun 1 none).isSome = true ∧
    (∀ o c', RecFun.tol.maximizeCon demoPar 1000000 (fun _ _ => ⟨.classical, 1, 1⟩ : Fin 1 → Fin 1 → Iv ℚ)
      (fun _ => ⟨.classical, 1, 1⟩) (fun _ => 1) ⟨[(fun _ => 1, 0)], none⟩ (fun _ => 0) = .ok (o, c') →
      RecFun.uni.maximizeCon demoPar 1000000 (fun _ _ => ⟨.classical, -1, 1⟩ : Fin 1 → Fin 1 → Iv ℚ)
        (fun _ => ⟨.classical, 1, 1⟩) (fun _ => 1) c' (fun _ => 0) =
      RecFun.uni.maximizeCon demoPar 1000000 (fun _ _ => ⟨.classical, -1, 1⟩ : Fin 1 → Fin 1 → Iv ℚ)
        (fun _ => ⟨.classical, 1, 1⟩) (fun _ => 1) ⟨[(fun _ => 1, 0)], none⟩ (fun _ => 0)) :=
  ⟨by decide +kernel, by decide +kernel, fun o c' h => C102_reuse_partial _ _ _ _ _ _ _ _ _ _ _ _ _ _ _ _ h
    (Or.inr (by decide +kernel))⟩

end IntvalPy
