import Verif.PropsGauss
import Mathlib.Algebra.Order.BigOperators.Group.Finset
import Mathlib.Algebra.Order.BigOperators.Ring.Finset
import Mathlib.Data.Fin.VecNotation
import Mathlib.Tactic.FieldSimp
import Mathlib.Tactic.Linarith
import Mathlib.Tactic.NormNum

/-!
# How fast Gauss_Seidel converges (C128)

Everything is measured by the one-sided distance `Exc e X Y`: the interval `X` sticks out of `Y` by at most `e`.
-/

set_option autoImplicit false
set_option linter.unusedSectionVars false

namespace IntvalPy
open Spec

variable {K : Type*} [Field K] [LinearOrder K] [IsStrictOrderedRing K]

/-- `X` sticks out of `Y` by at most `e`. -/
def Exc (e : K) (X Y : Iv K) : Prop := Y.a - e ≤ X.a ∧ X.b ≤ Y.b + e

theorem exc_mono {e f : K} {X Y : Iv K} (h : Exc e X Y) (hef : e ≤ f) : Exc f X Y :=
  ⟨by linarith [h.1], by linarith [h.2]⟩

/-- Every point of `X` has a point of `Y` within `e`. -/
theorem exc_point {e : K} {X Y : Iv K} (hY : Y.a ≤ Y.b) (he : 0 ≤ e) (h : Exc e X Y) {x : K} (hx : x ∈ X) :
    ∃ y ∈ Y, |x - y| ≤ e := by
  have hx1 : X.a ≤ x := hx.1
  have hx2 : x ≤ X.b := hx.2
  obtain ⟨h1, h2⟩ := h
  by_cases c1 : x < Y.a
  · exact ⟨Y.a, ⟨le_refl _, hY⟩, by rw [abs_le]; constructor <;> linarith⟩
  · by_cases c2 : Y.b < x
    · exact ⟨Y.b, ⟨hY, le_refl _⟩, by rw [abs_le]; constructor <;> linarith⟩
    · exact ⟨x, ⟨not_lt.mp c1, not_lt.mp c2⟩, by simpa using he⟩

theorem exc_mul {e : K} {A X Y : Iv K} (hA : Ordinary A) (hX : Ordinary X) (hY : Ordinary Y) (he : 0 ≤ e)
    (h : Exc e X Y) : Exc (A.mag * e) (A.mul Rnd.exact X) (A.mul Rnd.exact Y) := by
  obtain ⟨_, ⟨a, ha, x, hx, e1⟩, ⟨a', ha', x', hx', e2⟩⟩ := C11_mul_range A X hA hX
  have hin := (C11_mul_range A Y hA hY).1
  have key : ∀ a x, a ∈ A → x ∈ X → ∃ s, s ∈ A.mul Rnd.exact Y ∧ |a * x - s| ≤ A.mag * e := by
    intro a x ha hx
    obtain ⟨y, hy, hxy⟩ := exc_point hY.2 he h hx
    refine ⟨a * y, hin _ ⟨a, ha, y, hy, rfl⟩, ?_⟩
    rw [← mul_sub, abs_mul]
    exact mul_le_mul ((C20_characteristics A hA).1 a ha).2 hxy (abs_nonneg _)
      ((abs_nonneg a).trans ((C20_characteristics A hA).1 a ha).2)
  constructor
  · obtain ⟨s, hs, hd⟩ := key a x ha hx
    have hs1 := hs.1
    rw [← e1] at hd
    rw [abs_le] at hd
    linarith [hd.1]
  · obtain ⟨s, hs, hd⟩ := key a' x' ha' hx'
    have hs2 := hs.2
    rw [← e2] at hd
    rw [abs_le] at hd
    linarith [hd.2]

theorem exc_div {e : K} {A X Y Z W : Iv K} (hA : Ordinary A) (hX : Ordinary X) (hY : Ordinary Y) (he : 0 ≤ e)
    (hm : 0 < A.mig) (h : Exc e X Y) (hZ : X.div Rnd.exact A = .ok Z) (hW : Y.div Rnd.exact A = .ok W) :
    Exc (e / A.mig) Z W := by
  obtain ⟨_, ⟨x, hx, a, ha, e1⟩, ⟨x', hx', a', ha', e2⟩⟩ := C11_div_range X A Z hX hA hZ
  have hin := (C11_div_range Y A W hY hA hW).1
  have key : ∀ a x, a ∈ A → x ∈ X → ∃ s, s ∈ W ∧ |x / a - s| ≤ e / A.mig := by
    intro a x ha hx
    obtain ⟨y, hy, hxy⟩ := exc_point hY.2 he h hx
    refine ⟨y / a, hin _ ⟨y, hy, a, ha, rfl⟩, ?_⟩
    rw [← sub_div, abs_div]
    exact div_le_div₀ he hxy hm ((C20_characteristics A hA).1 a ha).1
  constructor
  · obtain ⟨s, hs, hd⟩ := key a x ha hx
    have hs1 := hs.1
    rw [← e1] at hd
    rw [abs_le] at hd
    linarith [hd.1]
  · obtain ⟨s, hs, hd⟩ := key a' x' ha' hx'
    have hs2 := hs.2
    rw [← e2] at hd
    rw [abs_le] at hd
    linarith [hd.2]

theorem foldl_add_gs {ι : Type*} (l : List ι) (F : ι → Iv K) (Z : Iv K) (hZ : Z.cls = .classical)
    (hF : ∀ i ∈ l, (F i).cls = .classical) :
    (l.map F).foldl (Iv.add Rnd.exact) Z
      = ⟨.classical, Z.a + (l.map fun i => (F i).a).sum, Z.b + (l.map fun i => (F i).b).sum⟩ := by
  induction l generalizing Z with
  | nil => obtain ⟨c, a, b⟩ := Z; simp only at hZ; subst hZ; simp
  | cons i t ih =>
    have hi := hF i (by simp)
    rw [List.map_cons, List.foldl_cons, ih _ (by unfold Iv.add; rw [hZ, hi])
      (fun j hj => hF j (by simp [hj]))]
    unfold Iv.add
    rw [hZ, hi]
    simp [add_assoc]

/-- Without rounding `X - sum(l)` has the ends one expects. -/
theorem subSum_exact {ι : Type*} (X : Iv K) (hX : X.cls = .classical) (l : List ι) (F : ι → Iv K)
    (hF : ∀ i ∈ l, (F i).cls = .classical) :
    subSum Rnd.exact X (l.map F)
      = ⟨.classical, X.a - (l.map fun i => (F i).b).sum, X.b - (l.map fun i => (F i).a).sum⟩ := by
  cases l with
  | nil => obtain ⟨c, a, b⟩ := X; simp only at hX; subst hX; simp [subSum, Iv.subNum, Iv.radd]
  | cons i t =>
    have hi := hF i (by simp)
    rw [List.map_cons, subSum, foldl_add_gs t F _ (by simp [Iv.radd, hi])
      (fun j hj => hF j (by simp [hj]))]
    unfold Iv.sub
    rw [hX]
    simp [Iv.radd]

theorem exc_subSum {ι : Type*} {e : K} {X Y : Iv K} (hX : X.cls = .classical) (hY : Y.cls = .classical)
    (h : Exc e X Y) (l : List ι) (F G : ι → Iv K) (d : ι → K)
    (hF : ∀ i ∈ l, (F i).cls = .classical) (hG : ∀ i ∈ l, (G i).cls = .classical)
    (hd : ∀ i ∈ l, Exc (d i) (F i) (G i)) :
    Exc (e + (l.map d).sum) (subSum Rnd.exact X (l.map F)) (subSum Rnd.exact Y (l.map G)) := by
  rw [subSum_exact X hX l F hF, subSum_exact Y hY l G hG]
  have h1 : (l.map fun i => (F i).b).sum ≤ (l.map fun i => (G i).b).sum + (l.map d).sum := by
    clear hF hG
    induction l with
    | nil => simp
    | cons i t ih =>
      have := (hd i (by simp)).2
      have := ih (fun j hj => hd j (by simp [hj]))
      simp only [List.map_cons, List.sum_cons]
      linarith
  have h2 : (l.map fun i => (G i).a).sum - (l.map d).sum ≤ (l.map fun i => (F i).a).sum := by
    clear hF hG h1
    induction l with
    | nil => simp
    | cons i t ih =>
      have := (hd i (by simp)).1
      have := ih (fun j hj => hd j (by simp [hj]))
      simp only [List.map_cons, List.sum_cons]
      linarith
  obtain ⟨ha, hb⟩ := h
  constructor
  · show Y.a - (l.map fun i => (G i).b).sum - (e + (l.map d).sum) ≤ X.a - (l.map fun i => (F i).b).sum
    linarith
  · show X.b - (l.map fun i => (F i).a).sum ≤ Y.b - (l.map fun i => (G i).a).sum + (e + (l.map d).sum)
    linarith

theorem subSum_ordinary {ι : Type*} (X : Iv K) (hX : Ordinary X) (l : List ι) (F : ι → Iv K)
    (hF : ∀ i ∈ l, Ordinary (F i)) : Ordinary (subSum Rnd.exact X (l.map F)) :=
  (subSum_encloses Rnd.exact X X.a hX ⟨le_refl _, hX.2⟩ l F (fun i => (F i).a)
    (fun i hi => ⟨hF i hi, ⟨le_refl _, (hF i hi).2⟩⟩)).2

/-- The sum over the entries of row `k` beside the diagonal. -/
def offSum {n : ℕ} (f : Fin n → K) (k : Fin n) : K := ∑ j, if j = k then 0 else f j

theorem offSum_split {n : ℕ} (f : Fin n → K) (k : Fin n) :
    (((List.finRange n).filter fun j => j < k).map f).sum +
      (((List.finRange n).filter fun j => k < j).map f).sum = offSum f k := by
  unfold offSum
  rw [sum_split _ k, if_pos rfl, add_zero]
  congr 2
  · refine List.map_congr_left fun j hj => ?_
    have hj' : j < k := by simpa using (List.mem_filter.mp hj).2
    rw [if_neg hj'.ne]
  · refine List.map_congr_left fun j hj => ?_
    have hj' : k < j := by simpa using (List.mem_filter.mp hj).2
    rw [if_neg hj'.ne']

theorem offSum_mul {n : ℕ} (f : Fin n → K) (c : K) (k : Fin n) :
    offSum (fun j => f j * c) k = offSum f k * c := by
  unfold offSum
  rw [Finset.sum_mul]
  exact Finset.sum_congr rfl fun j _ => by split_ifs <;> simp

theorem mag_nn (X : Iv K) (hX : Ordinary X) : 0 ≤ X.mag :=
  (abs_nonneg X.a).trans ((C20_characteristics X hX).1 X.a ⟨le_refl _, hX.2⟩).2

/-- `new_bar` depends on the boxes with the factors `mag(A_kj) / mig(A_kk)`. -/
theorem gsBar_exc {n : ℕ} (A : Fin n → Fin n → Iv K) (hA : ∀ i j, Ordinary (A i j)) (b b' : Fin n → Iv K)
    (hb : ∀ i, Ordinary (b i)) (hb' : ∀ i, Ordinary (b' i)) (res res' pre pre' : Fin n → Iv K) (k : Fin n)
    (hres : ∀ j, j < k → Ordinary (res j) ∧ Ordinary (res' j))
    (hpre : ∀ j, Ordinary (pre j) ∧ Ordinary (pre' j))
    (hm : 0 < (A k k).mig) (eb : K) (heb : 0 ≤ eb) (hbe : Exc eb (b k) (b' k)) (e : Fin n → K)
    (he : ∀ j, 0 ≤ e j) (h1 : ∀ j, j < k → Exc (e j) (res j) (res' j))
    (h2 : ∀ j, k < j → Exc (e j) (pre j) (pre' j)) (Z W : Iv K)
    (hZ : gsBar Rnd.exact A b res pre k = .ok Z) (hW : gsBar Rnd.exact A b' res' pre' k = .ok W) :
    Exc ((eb + offSum (fun j => (A k j).mag * e j) k) / (A k k).mig) Z W := by
  have lt1 : ∀ j ∈ (List.finRange n).filter fun j => j < k, j < k := fun j hj => by
    simpa using (List.mem_filter.mp hj).2
  have lt2 : ∀ j ∈ (List.finRange n).filter fun j => k < j, k < j := fun j hj => by
    simpa using (List.mem_filter.mp hj).2
  have o1 := subSum_ordinary (b k) (hb k) ((List.finRange n).filter fun j => j < k)
    (fun j => (A k j).mul Rnd.exact (res j)) (fun j hj => C02_mul_ordinary _ _ _ (hA k j) (hres j (lt1 j hj)).1)
  have o1' := subSum_ordinary (b' k) (hb' k) ((List.finRange n).filter fun j => j < k)
    (fun j => (A k j).mul Rnd.exact (res' j)) (fun j hj => C02_mul_ordinary _ _ _ (hA k j) (hres j (lt1 j hj)).2)
  have o2 := subSum_ordinary _ o1 ((List.finRange n).filter fun j => k < j)
    (fun j => (A k j).mul Rnd.exact (pre j)) (fun j _ => C02_mul_ordinary _ _ _ (hA k j) (hpre j).1)
  have o2' := subSum_ordinary _ o1' ((List.finRange n).filter fun j => k < j)
    (fun j => (A k j).mul Rnd.exact (pre' j)) (fun j _ => C02_mul_ordinary _ _ _ (hA k j) (hpre j).2)
  have x1 := exc_subSum (hb k).1 (hb' k).1 hbe ((List.finRange n).filter fun j => j < k)
    (fun j => (A k j).mul Rnd.exact (res j)) (fun j => (A k j).mul Rnd.exact (res' j))
    (fun j => (A k j).mag * e j)
    (fun j hj => (C02_mul_ordinary _ _ _ (hA k j) (hres j (lt1 j hj)).1).1)
    (fun j hj => (C02_mul_ordinary _ _ _ (hA k j) (hres j (lt1 j hj)).2).1)
    (fun j hj => exc_mul (hA k j) (hres j (lt1 j hj)).1 (hres j (lt1 j hj)).2 (he j) (h1 j (lt1 j hj)))
  have x2 := exc_subSum o1.1 o1'.1 x1 ((List.finRange n).filter fun j => k < j)
    (fun j => (A k j).mul Rnd.exact (pre j)) (fun j => (A k j).mul Rnd.exact (pre' j))
    (fun j => (A k j).mag * e j)
    (fun j _ => (C02_mul_ordinary _ _ _ (hA k j) (hpre j).1).1)
    (fun j _ => (C02_mul_ordinary _ _ _ (hA k j) (hpre j).2).1)
    (fun j hj => exc_mul (hA k j) (hpre j).1 (hpre j).2 (he j) (h2 j (lt2 j hj)))
  rw [add_assoc, offSum_split] at x2
  refine exc_div (hA k k) o2 o2' ?_ hm x2 hZ hW
  refine add_nonneg heb (Finset.sum_nonneg fun j _ => ?_)
  split_ifs
  · exact le_refl _
  · exact mul_nonneg (mag_nn _ (hA k j)) (he j)

/-- `new_bar` looks at the new values before `k` only. -/
theorem gsBar_congr {n : ℕ} (R : Rnd K) (A : Fin n → Fin n → Iv K) (b res res' pre : Fin n → Iv K) (k : Fin n)
    (h : ∀ j, j < k → res j = res' j) : gsBar R A b res pre k = gsBar R A b res' pre k := by
  unfold gsBar
  have : (((List.finRange n).filter fun j => j < k).map fun j => (A k j).mul R (res j))
      = (((List.finRange n).filter fun j => j < k).map fun j => (A k j).mul R (res' j)) := by
    refine List.map_congr_left fun j hj => ?_
    rw [h j (by simpa using (List.mem_filter.mp hj).2)]
  rw [this]

/-- What one pass of the loop over `k` has done, written for the finished pass. -/
def SweepOf {n : ℕ} (A : Fin n → Fin n → Iv K) (b pre X : Fin n → Iv K) : Prop :=
  ∀ k, ∃ bar, gsBar Rnd.exact A b X pre k = .ok bar ∧ intersect Rnd.exact (pre k) bar = some (X k)

theorem gsSweep_sweepOf_aux {n : ℕ} (A : Fin n → Fin n → Iv K) (b pre X : Fin n → Iv K) (ks : List (Fin n))
    (hs : ks.Pairwise (· < ·)) (res : Fin n → Iv K) (h : gsSweep Rnd.exact A b pre ks res = .ok X) :
    (∀ j, j ∉ ks → X j = res j) ∧
    ∀ k ∈ ks, ∃ bar, gsBar Rnd.exact A b X pre k = .ok bar ∧ intersect Rnd.exact (pre k) bar = some (X k) := by
  induction ks generalizing res with
  | nil =>
    simp only [gsSweep, Except.ok.injEq] at h
    subst h
    exact ⟨fun _ _ => rfl, fun k hk => absurd hk (by simp)⟩
  | cons k ks ih =>
    have hlt : ∀ j, j < k → j ∉ k :: ks := by
      intro j hj hm
      rcases List.mem_cons.mp hm with e | e
      · exact (e ▸ hj).false
      · exact (hj.trans ((List.pairwise_cons.mp hs).1 j e)).false
    have hk : k ∉ ks := fun hk => ((List.pairwise_cons.mp hs).1 k hk).false
    simp only [gsSweep] at h
    cases hbar : gsBar Rnd.exact A b res pre k with
    | error e => rw [hbar] at h; cases h
    | ok bar =>
      rw [hbar] at h
      dsimp only at h
      cases hi : intersect Rnd.exact (pre k) bar with
      | none => rw [hi] at h; cases h
      | some Z =>
        rw [hi] at h
        dsimp only at h
        obtain ⟨i1, i2⟩ := ih (List.pairwise_cons.mp hs).2 _ h
        have hX : ∀ j, j ∉ k :: ks → X j = res j := by
          intro j hj
          have hj' : j ≠ k ∧ j ∉ ks := by simpa using hj
          rw [i1 j hj'.2, Function.update_of_ne hj'.1]
        refine ⟨hX, fun l hl => ?_⟩
        rcases List.mem_cons.mp hl with e | e
        · subst e
          refine ⟨bar, ?_, ?_⟩
          · rw [gsBar_congr Rnd.exact A b X res pre l (fun j hj => hX j (hlt j hj)), hbar]
          · rw [hi, i1 l hk, Function.update_self]
        · exact i2 l e

theorem gsSweep_sweepOf {n : ℕ} (A : Fin n → Fin n → Iv K) (b pre X res : Fin n → Iv K)
    (h : gsSweep Rnd.exact A b pre (List.finRange n) res = .ok X) : SweepOf A b pre X := fun k =>
  (gsSweep_sweepOf_aux A b pre X _ (List.pairwise_lt_finRange n) res h).2 k
    (List.mem_finRange k)

/-- The intersection of two intervals with a common point. -/
theorem intersect_common {X Y Z : Iv K} {s : K} (hX : s ∈ X) (hY : s ∈ Y)
    (h : intersect Rnd.exact X Y = some Z) : Z = ⟨.classical, max X.a Y.a, min X.b Y.b⟩ := by
  have h1 : max X.a Y.a ≤ s := max_le hX.1 hY.1
  have h2 : s ≤ min X.b Y.b := le_min hX.2 hY.2
  have es : (if X.a < Y.a then Y.a else X.a) = max X.a Y.a := by
    split_ifs with h
    · exact (max_eq_right h.le).symm
    · exact (max_eq_left (not_lt.mp h)).symm
  have ei : (if X.b < Y.b then X.b else Y.b) = min X.b Y.b := by
    split_ifs with h
    · exact (min_eq_left h.le).symm
    · exact (min_eq_right (not_lt.mp h)).symm
  simp only [intersect, es, ei] at h
  split_ifs at h with c1 c2
  · exact absurd (h1.trans h2) (not_le.mpr c2)
  · simpa using h.symm

theorem distVec_zip {n : ℕ} (X Y : Fin n → Iv K) :
    List.zipWith cheb (List.ofFn X) (List.ofFn Y) = List.ofFn fun i => cheb (X i) (Y i) := by
  apply List.ext_getElem
  · simp
  · intro i h1 h2
    simp

theorem distVec_le {n : ℕ} {X Y : Fin n → Iv K} {d : K} (h : distVec (List.ofFn X) (List.ofFn Y) = .ok d)
    (i : Fin n) : cheb (X i) (Y i) ≤ d := by
  unfold distVec at h
  rw [distVec_zip] at h
  exact (npAmax_spec h).2 _ ((List.mem_ofFn' _ _).mpr ⟨i, rfl⟩)

theorem distVec_attained {n : ℕ} {X Y : Fin n → Iv K} {d : K}
    (h : distVec (List.ofFn X) (List.ofFn Y) = .ok d) : ∃ i, cheb (X i) (Y i) = d := by
  unfold distVec at h
  rw [distVec_zip] at h
  exact (List.mem_ofFn' _ _).mp (npAmax_spec h).1

/-- The state between two passes: `X` was obtained from `P` by one pass, the point `x` is in both. -/
structure GSState {n : ℕ} (A : Fin n → Fin n → Iv K) (b P X : Fin n → Iv K) (x : Fin n → K) : Prop where
  ordP : ∀ i, Ordinary (P i)
  ordX : ∀ i, Ordinary (X i)
  memP : InVec x P
  memX : InVec x X
  sweep : SweepOf A b P X

/-- In a finished pass each component lies in the old one and in `new_bar`, and reaches an end of one of
them on each side. -/
theorem GSState.ends {n : ℕ} {A : Fin n → Fin n → Iv K} {b P X : Fin n → Iv K} {x : Fin n → K}
    (hA : ∀ i j, Ordinary (A i j)) (hb : ∀ i, Ordinary (b i)) (hx : United A b x) (S : GSState A b P X x)
    (k : Fin n) : ∃ bar, gsBar Rnd.exact A b X P k = .ok bar ∧ Ordinary bar ∧
      (X k).a = max (P k).a bar.a ∧ (X k).b = min (P k).b bar.b := by
  obtain ⟨bar, h1, h2⟩ := S.sweep k
  obtain ⟨A', hA', b', hb', he⟩ := hx
  obtain ⟨g1, g1'⟩ := subSum_encloses Rnd.exact (b k) (b' k) (hb k) (hb' k)
    ((List.finRange n).filter fun j => j < k) (fun j => (A k j).mul Rnd.exact (X j)) (fun j => A' k j * x j)
    (fun j _ => mul_point _ _ _ (hA k j) (S.ordX j) _ _ (hA' k j) (S.memX j))
  obtain ⟨g2, g2'⟩ := subSum_encloses Rnd.exact _ _ g1' g1
    ((List.finRange n).filter fun j => k < j) (fun j => (A k j).mul Rnd.exact (P j)) (fun j => A' k j * x j)
    (fun j _ => mul_point _ _ _ (hA k j) (S.ordP j) _ _ (hA' k j) (S.memP j))
  have heq : A' k k * x k = b' k - (((List.finRange n).filter fun j => j < k).map fun j => A' k j * x j).sum
      - (((List.finRange n).filter fun j => k < j).map fun j => A' k j * x j).sum := by
    rw [← he k, apply, sum_split _ k]; ring
  obtain ⟨hx', ho⟩ := div_point Rnd.exact _ _ bar g2' (hA k k) h1 _ _ (x k) g2 (hA' k k) heq
  have := intersect_common (S.memP k) hx' h2
  exact ⟨bar, h1, ho, by rw [this], by rw [this]⟩

/-- One pass of the loop moves the box at most `κ` times as far as the pass before. -/
theorem gs_contract {n : ℕ} {A : Fin n → Fin n → Iv K} {b P X Y : Fin n → Iv K} {x : Fin n → K}
    (hA : ∀ i j, Ordinary (A i j)) (hb : ∀ i, Ordinary (b i)) (hx : United A b x)
    (κ : K) (hκ0 : 0 ≤ κ) (hκ1 : κ ≤ 1) (hm : ∀ k, 0 < (A k k).mig) (v : Fin n → K) (hv : ∀ i, 0 < v i)
    (hκ : ∀ k, offSum (fun j => (A k j).mag * v j) k ≤ κ * ((A k k).mig * v k))
    (S : GSState A b P X x) (T : GSState A b X Y x) (D : K) (hD0 : 0 ≤ D)
    (hD : ∀ i, cheb (X i) (P i) ≤ v i * D) : ∀ i, cheb (Y i) (X i) ≤ v i * (κ * D) := by
  have main : ∀ m : ℕ, ∀ k : Fin n, k.val = m → cheb (Y k) (X k) ≤ v k * (κ * D) := by
    intro m
    induction m using Nat.strong_induction_on with
    | _ m ih =>
      intro k hk
      obtain ⟨bar1, e1, o1, a1, b1⟩ := S.ends hA hb hx k
      obtain ⟨bar2, e2, o2, a2, b2⟩ := T.ends hA hb hx k
      have hexc := gsBar_exc A hA b b hb hb X Y P X k
        (fun j _ => ⟨S.ordX j, T.ordX j⟩) (fun j => ⟨S.ordP j, S.ordX j⟩) (hm k) 0 (le_refl _)
        ⟨by simp, by simp⟩ (fun j => v j * D) (fun j => mul_nonneg (hv j).le hD0)
        (fun j hj => by
          have h := ih j.val (hk ▸ hj) j rfl
          have h' : v j * (κ * D) ≤ v j * D :=
            mul_le_mul_of_nonneg_left (by nlinarith) (hv j).le
          unfold cheb at h
          have g1 := (le_max_left _ _).trans (h.trans h')
          have g2 := (le_max_right _ _).trans (h.trans h')
          rw [abs_le] at g1 g2
          exact ⟨by linarith [g1.2], by linarith [g2.1]⟩)
        (fun j _ => by
          have h := hD j
          unfold cheb at h
          have g1 := (le_max_left _ _).trans h
          have g2 := (le_max_right _ _).trans h
          rw [abs_le] at g1 g2
          exact ⟨by linarith [g1.2], by linarith [g2.1]⟩) bar1 bar2 e1 e2
      have hle : (0 + offSum (fun j => (A k j).mag * (v j * D)) k) / (A k k).mig ≤ v k * (κ * D) := by
        have e : (fun j => (A k j).mag * (v j * D)) = fun j => (A k j).mag * v j * D := by
          funext j; ring
        rw [e, offSum_mul, zero_add, div_le_iff₀ (hm k)]
        have := mul_le_mul_of_nonneg_right (hκ k) hD0
        linarith [mul_comm (κ * D) (A k k).mig, mul_assoc κ ((A k k).mig * v k) D,
          show κ * ((A k k).mig * v k) * D = v k * (κ * D) * (A k k).mig by ring]
      have hexc := exc_mono hexc hle
      have hκD : 0 ≤ v k * (κ * D) := mul_nonneg (hv k).le (mul_nonneg hκ0 hD0)
      have l1 : bar1.a ≤ (X k).a := a1 ▸ le_max_right _ _
      have l2 : (X k).b ≤ bar1.b := b1 ▸ min_le_right _ _
      have x1 := hexc.1
      have x2 := hexc.2
      unfold cheb
      refine max_le ?_ ?_
      · rw [a2, abs_le]
        constructor
        · linarith [le_max_left (X k).a bar2.a]
        · have : max (X k).a bar2.a ≤ (X k).a + v k * (κ * D) := max_le (by linarith) (by linarith)
          linarith
      · rw [b2, abs_le]
        constructor
        · have : (X k).b - v k * (κ * D) ≤ min (X k).b bar2.b := le_min (by linarith) (by linarith)
          linarith
        · linarith [min_le_left (X k).b bar2.b]
  exact fun i => main i.val i rfl

/-- The next pass, when it succeeds, gives again such a state. -/
theorem GSState.next {n : ℕ} {A : Fin n → Fin n → Iv K} {b X Y res : Fin n → Iv K} {x : Fin n → K}
    (hA : ∀ i j, Ordinary (A i j)) (hb : ∀ i, Ordinary (b i)) (hx : United A b x) (hX : ∀ i, Ordinary (X i))
    (hxX : InVec x X) (h : gsSweep Rnd.exact A b X (List.finRange n) res = .ok Y) :
    GSState A b X Y x ∧ ∀ i, Sub (Y i) (X i) := by
  obtain ⟨g1, g2, g3⟩ := (gsSweep_spec Rnd.exact A b X hA hb hX x hx hxX (List.finRange n)
    (List.pairwise_lt_finRange n) res (fun i hi => absurd (List.mem_finRange i) hi)).2 Y h
  exact ⟨⟨hX, g2, hxX, g1, gsSweep_sweepOf A b X Y res h⟩, g3⟩

/-- With `m` passes left and `κ ^ m` times the last change below `tol`, more passes change nothing. -/
theorem gs_stop {n : ℕ} {A : Fin n → Fin n → Iv K} {b : Fin n → Iv K} {x : Fin n → K}
    (hA : ∀ i j, Ordinary (A i j)) (hb : ∀ i, Ordinary (b i)) (hx : United A b x)
    (κ : K) (hκ0 : 0 ≤ κ) (hκ1 : κ ≤ 1) (hm : ∀ k, 0 < (A k k).mig) (v : Fin n → K) (hv : ∀ i, 0 < v i)
    (hκ : ∀ k, offSum (fun j => (A k j).mag * v j) k ≤ κ * ((A k k).mig * v k)) (tol : K) :
    ∀ (m fuel : ℕ) (P X : Fin n → Iv K) (d D : K), GSState A b P X x →
      distVec (List.ofFn X) (List.ofFn P) = .ok d → (∀ i, cheb (X i) (P i) ≤ v i * D) → 0 ≤ D →
      (∀ i, v i * (κ ^ m * D) < tol) → m ≤ fuel →
      gsLoop Rnd.exact A b tol fuel (some d) X X = gsLoop Rnd.exact A b tol m (some d) X X ∧
      ∀ Y, gsLoop Rnd.exact A b tol m (some d) X X = .ok Y →
        ∃ Q, GSState A b Q Y x ∧ ∀ i, cheb (Y i) (Q i) < tol := by
  intro m
  induction m with
  | zero =>
    intro fuel P X d D S hd hdD hD0 ht _
    have hlt : d < tol := by
      obtain ⟨i, hi⟩ := distVec_attained hd
      exact hi ▸ (hdD i).trans_lt (by simpa using ht i)
    constructor
    · cases fuel with
      | zero => rfl
      | succ f =>
        have : gsFar tol (some d) = false := by simp [gsFar, hlt]
        simp [gsLoop, this]
    · intro Y hY
      simp only [gsLoop, Except.ok.injEq] at hY
      subst hY
      exact ⟨P, S, fun i => (distVec_le hd i).trans_lt hlt⟩
  | succ m ih =>
    intro fuel P X d D S hd hdD hD0 ht hmf
    obtain ⟨f, rfl⟩ : ∃ f, fuel = f + 1 := ⟨fuel - 1, by omega⟩
    by_cases hf : gsFar tol (some d) = true
    · simp only [gsLoop, hf, if_true]
      cases hs : gsSweep Rnd.exact A b X (List.finRange n) X with
      | error e => exact ⟨rfl, fun Y hY => by cases hY⟩
      | ok Z =>
        obtain ⟨T, _⟩ := GSState.next hA hb hx S.ordX S.memX hs
        dsimp only
        cases hd2 : distVec (List.ofFn Z) (List.ofFn X) with
        | error e => exact ⟨rfl, fun Y hY => by cases hY⟩
        | ok d2 =>
          have hc := gs_contract hA hb hx κ hκ0 hκ1 hm v hv hκ S T D hD0 hdD
          exact ih f X Z d2 (κ * D) T hd2 hc (mul_nonneg hκ0 hD0)
            (fun i => by rw [← mul_assoc (κ ^ m), ← pow_succ]; exact ht i) (by omega)
    · have hf' : gsFar tol (some d) = false := by simpa using hf
      have hlt : d < tol := by simpa [gsFar] using hf'
      constructor
      · simp [gsLoop, hf']
      · intro Y hY
        simp only [gsLoop, hf', Bool.false_eq_true, if_false, Except.ok.injEq] at hY
        subst hY
        exact ⟨P, S, fun i => (distVec_le hd i).trans_lt hlt⟩

/-- The whole loop from the start box. -/
theorem gs_run {n : ℕ} {A : Fin n → Fin n → Iv K} {b : Fin n → Iv K} {x : Fin n → K}
    (hA : ∀ i j, Ordinary (A i j)) (hb : ∀ i, Ordinary (b i)) (hx : United A b x)
    (κ : K) (hκ0 : 0 ≤ κ) (hκ1 : κ ≤ 1) (hm : ∀ k, 0 < (A k k).mig) (v : Fin n → K) (hv : ∀ i, 0 < v i)
    (hκ : ∀ k, offSum (fun j => (A k j).mag * v j) k ≤ κ * ((A k k).mig * v k)) (tol : K) (start res : Fin n → Iv K)
    (hst : ∀ i, Ordinary (start i)) (hxs : InVec x start) (W : K)
    (hW : ∀ i, (start i).b - (start i).a ≤ v i * W) (N : ℕ) (ht : ∀ i, v i * (κ ^ N * W) < tol) (fuel : ℕ) (hf : N ≤ fuel) :
    gsLoop Rnd.exact A b tol (fuel + 1) none start res = gsLoop Rnd.exact A b tol (N + 1) none start res ∧
    ∀ Y, gsLoop Rnd.exact A b tol (N + 1) none start res = .ok Y →
      ∃ Q, GSState A b Q Y x ∧ ∀ i, cheb (Y i) (Q i) < tol := by
  have hfar : gsFar tol none = true := rfl
  simp only [gsLoop, hfar, if_true]
  cases hs : gsSweep Rnd.exact A b start (List.finRange n) res with
  | error e => exact ⟨rfl, fun Y hY => by cases hY⟩
  | ok Z =>
    obtain ⟨T, hsub⟩ := GSState.next hA hb hx hst hxs hs
    dsimp only
    cases hd2 : distVec (List.ofFn Z) (List.ofFn start) with
    | error e => exact ⟨rfl, fun Y hY => by cases hY⟩
    | ok d2 =>
      have hle : ∀ i, cheb (Z i) (start i) ≤ v i * W := by
        intro i
        have h1 := (hsub i _ (⟨le_refl _, (T.ordX i).2⟩ : (Z i).a ∈ Z i))
        have h2 := (hsub i _ (⟨(T.ordX i).2, le_refl _⟩ : (Z i).b ∈ Z i))
        have h1a := h1.1
        have h1b := h1.2
        have h2a := h2.1
        have h2b := h2.2
        have := hW i
        unfold cheb
        refine max_le ?_ ?_ <;> rw [abs_le] <;> constructor <;> linarith
      obtain ⟨i, _⟩ := distVec_attained hd2
      have hW0 : 0 ≤ W := by
        by_contra hneg
        have := mul_neg_of_pos_of_neg (hv i) (not_le.mp hneg)
        linarith [hW i, (hst i).2]
      exact gs_stop hA hb hx κ hκ0 hκ1 hm v hv hκ tol N fuel start Z d2 W T hd2 hle hW0 ht hf

/-- `new_bar` of data in which every product beside the diagonal has one value only. -/
theorem gsBar_single {n : ℕ} (A : Fin n → Fin n → Iv K) (hA : ∀ i j, Ordinary (A i j)) (b res pre : Fin n → Iv K)
    (hb : ∀ i, Ordinary (b i)) (hr : ∀ i, Ordinary (res i)) (hp : ∀ i, Ordinary (pre i)) (k : Fin n)
    (β : K) (hβ : ∀ t ∈ b k, t = β) (c : Fin n → K)
    (h1 : ∀ j, j < k → ∀ s ∈ A k j, ∀ z ∈ res j, s * z = c j)
    (h2 : ∀ j, k < j → ∀ s ∈ A k j, ∀ z ∈ pre j, s * z = c j) (W : Iv K)
    (hW : gsBar Rnd.exact A b res pre k = .ok W) :
    (∃ s ∈ A k k, W.a = (β - offSum c k) / s) ∧ ∃ s ∈ A k k, W.b = (β - offSum c k) / s := by
  have lt1 : ∀ j ∈ (List.finRange n).filter fun j => j < k, j < k := fun j hj => by
    simpa using (List.mem_filter.mp hj).2
  have lt2 : ∀ j ∈ (List.finRange n).filter fun j => k < j, k < j := fun j hj => by
    simpa using (List.mem_filter.mp hj).2
  have p1 : (((List.finRange n).filter fun j => j < k).map fun j => (A k j).mul Rnd.exact (res j))
      = (((List.finRange n).filter fun j => j < k).map fun j => (⟨.classical, c j, c j⟩ : Iv K)) := by
    refine List.map_congr_left fun j hj => ?_
    obtain ⟨_, ⟨s, hs, z, hz, e1⟩, ⟨s', hs', z', hz', e2⟩⟩ := C11_mul_range (A k j) (res j) (hA k j) (hr j)
    have hc := (C02_mul_ordinary Rnd.exact _ _ (hA k j) (hr j)).1
    rw [h1 j (lt1 j hj) s hs z hz] at e1
    rw [h1 j (lt1 j hj) s' hs' z' hz'] at e2
    generalize (A k j).mul Rnd.exact (res j) = M at hc e1 e2
    obtain ⟨cl, ma, mb⟩ := M
    simp only at hc e1 e2
    rw [hc, e1, e2]
  have p2 : (((List.finRange n).filter fun j => k < j).map fun j => (A k j).mul Rnd.exact (pre j))
      = (((List.finRange n).filter fun j => k < j).map fun j => (⟨.classical, c j, c j⟩ : Iv K)) := by
    refine List.map_congr_left fun j hj => ?_
    obtain ⟨_, ⟨s, hs, z, hz, e1⟩, ⟨s', hs', z', hz', e2⟩⟩ := C11_mul_range (A k j) (pre j) (hA k j) (hp j)
    have hc := (C02_mul_ordinary Rnd.exact _ _ (hA k j) (hp j)).1
    rw [h2 j (lt2 j hj) s hs z hz] at e1
    rw [h2 j (lt2 j hj) s' hs' z' hz'] at e2
    generalize (A k j).mul Rnd.exact (pre j) = M at hc e1 e2
    obtain ⟨cl, ma, mb⟩ := M
    simp only at hc e1 e2
    rw [hc, e1, e2]
  have hbk : b k = ⟨.classical, β, β⟩ := by
    have q0 := (hb k).1
    have q1 := hβ (b k).a ⟨le_refl _, (hb k).2⟩
    have q2 := hβ (b k).b ⟨(hb k).2, le_refl _⟩
    generalize b k = M at q0 q1 q2
    obtain ⟨cl, ma, mb⟩ := M
    simp only at q0 q1 q2
    rw [q0, q1, q2]
  unfold gsBar at hW
  have q1 := subSum_exact (⟨.classical, β, β⟩ : Iv K) rfl ((List.finRange n).filter fun j => j < k)
    (fun j => (⟨.classical, c j, c j⟩ : Iv K)) (fun _ _ => rfl)
  rw [p1, p2, hbk, q1, subSum_exact _ rfl _ _ (fun _ _ => rfl)] at hW
  have hsum := offSum_split c k
  have hn : β - (((List.finRange n).filter fun j => j < k).map c).sum
      - (((List.finRange n).filter fun j => k < j).map c).sum = β - offSum c k := by
    rw [← hsum]; ring
  have hsub : ∀ t ∈ (⟨.classical, β - (((List.finRange n).filter fun j => j < k).map c).sum
      - (((List.finRange n).filter fun j => k < j).map c).sum,
      β - (((List.finRange n).filter fun j => j < k).map c).sum
      - (((List.finRange n).filter fun j => k < j).map c).sum⟩ : Iv K), t = β - offSum c k := by
    intro t ht
    rw [← hn]
    exact le_antisymm ht.2 ht.1
  obtain ⟨_, ⟨t, ht, s, hs, e1⟩, ⟨t', ht', s', hs', e2⟩⟩ := C11_div_range _ (A k k) W
    ⟨rfl, le_refl _⟩ (hA k k) hW
  exact ⟨⟨s, hs, by rw [e1, hsub t ht]⟩, ⟨s', hs', by rw [e2, hsub t' ht']⟩⟩

theorem mag_le_iff {X : Iv K} (hX : Ordinary X) {M : K} : X.mag ≤ M ↔ -M ≤ X.a ∧ X.b ≤ M := by
  constructor
  · intro h
    have h1 := ((C20_characteristics X hX).1 X.a ⟨le_refl _, hX.2⟩).2.trans h
    have h2 := ((C20_characteristics X hX).1 X.b ⟨hX.2, le_refl _⟩).2.trans h
    rw [abs_le] at h1 h2
    exact ⟨h1.1, h2.2⟩
  · intro h
    obtain ⟨t, ht, e⟩ := (C20_characteristics X hX).2.2.1
    rw [← e, abs_le]
    exact ⟨h.1.trans ht.1, le_trans ht.2 h.2⟩

/-- A pass that changed the box by less than `tol` leaves it within `(β + κ τ) / (1 - κ)` (in units `v`) of any box `V` that
the same step with the right-hand side `b'` maps to itself, `β` measuring the distance of `b` from `b'`. -/
theorem gs_near {n : ℕ} {A : Fin n → Fin n → Iv K} {b b' Q X V : Fin n → Iv K} {x : Fin n → K}
    (hA : ∀ i j, Ordinary (A i j)) (hb : ∀ i, Ordinary (b i)) (hb' : ∀ i, Ordinary (b' i))
    (hV : ∀ i, Ordinary (V i)) (hx : United A b x)
    (κ : K) (hκ0 : 0 ≤ κ) (hκ1 : κ < 1) (hm : ∀ k, 0 < (A k k).mig) (v : Fin n → K) (hv : ∀ i, 0 < v i)
    (hκ : ∀ k, offSum (fun j => (A k j).mag * v j) k ≤ κ * ((A k k).mig * v k))
    (S : GSState A b Q X x) (tol τ : K) (hτ : ∀ i, tol ≤ v i * τ)
    (ht : ∀ i, cheb (X i) (Q i) < tol)
    (β : K) (hβ0 : 0 ≤ β) (e : Fin n → K) (he0 : ∀ k, 0 ≤ e k) (he : ∀ k, e k ≤ β * ((A k k).mig * v k))
    (hbe : ∀ k, Exc (e k) (b k) (b' k))
    (hfix : ∀ k, gsBar Rnd.exact A b' V V k = .ok (V k)) :
    ∀ i, Exc (v i * ((β + κ * τ) / (1 - κ))) (X i) (V i) := by
  intro i
  -- the largest excess, in units `v`
  obtain ⟨k, _, hk⟩ := Finset.exists_max_image (Finset.univ : Finset (Fin n))
    (fun j => max 0 (max (((V j).a - (X j).a) / v j) (((X j).b - (V j).b) / v j))) ⟨i, Finset.mem_univ _⟩
  set E := max 0 (max (((V k).a - (X k).a) / v k) (((X k).b - (V k).b) / v k)) with hE
  have hE0 : 0 ≤ E := le_max_left _ _
  have hXE : ∀ j, Exc (v j * E) (X j) (V j) := fun j => by
    have h := hk j (Finset.mem_univ _)
    have g1 := (le_max_left _ _).trans ((le_max_right 0 _).trans h)
    have g2 := (le_max_right _ _).trans ((le_max_right 0 _).trans h)
    rw [div_le_iff₀ (hv j)] at g1 g2
    exact ⟨by linarith, by linarith⟩
  have htol : 0 ≤ tol := by
    have := ht i
    unfold cheb at this
    exact ((abs_nonneg _).trans (le_max_left _ _)).trans this.le
  have hτ0 : 0 ≤ τ := by
    by_contra hneg
    have := mul_neg_of_pos_of_neg (hv i) (not_le.mp hneg)
    linarith [hτ i]
  have hQE : ∀ j, Exc (v j * (E + τ)) (Q j) (V j) := fun j => by
    have h := ht j
    unfold cheb at h
    have g1 := (le_max_left _ _).trans h.le
    have g2 := (le_max_right _ _).trans h.le
    rw [abs_le] at g1 g2
    obtain ⟨q1, q2⟩ := hXE j
    have := hτ j
    exact ⟨by linarith [g1.2, mul_add (v j) E τ], by linarith [g2.1, mul_add (v j) E τ]⟩
  obtain ⟨bar, e1, o1, a1, b1⟩ := S.ends hA hb hx k
  have hexc := gsBar_exc A hA b b' hb hb' X V Q V k (fun j _ => ⟨S.ordX j, hV j⟩)
    (fun j => ⟨S.ordP j, hV j⟩) (hm k) (e k) (he0 k) (hbe k) (fun j => v j * (E + τ))
    (fun j => mul_nonneg (hv j).le (by linarith))
    (fun j _ => exc_mono (hXE j) (mul_le_mul_of_nonneg_left (by linarith) (hv j).le)) (fun j _ => hQE j)
    bar (V k) e1 (hfix k)
  have hle : (e k + offSum (fun j => (A k j).mag * (v j * (E + τ))) k) / (A k k).mig
      ≤ v k * (β + κ * (E + τ)) := by
    have e' : (fun j => (A k j).mag * (v j * (E + τ))) = fun j => (A k j).mag * v j * (E + τ) := by
      funext j; ring
    rw [e', offSum_mul, div_le_iff₀ (hm k)]
    have h1 := mul_le_mul_of_nonneg_right (hκ k) (by linarith : 0 ≤ E + τ)
    have h2 := he k
    have h3 : v k * (β + κ * (E + τ)) * (A k k).mig
        = β * ((A k k).mig * v k) + κ * ((A k k).mig * v k) * (E + τ) := by ring
    linarith
  obtain ⟨x1, x2⟩ := exc_mono hexc hle
  have l1 : bar.a ≤ (X k).a := a1 ▸ le_max_right _ _
  have l2 : (X k).b ≤ bar.b := b1 ▸ min_le_right _ _
  have hEle : E ≤ β + κ * (E + τ) := by
    rw [hE]
    refine max_le ?_ (max_le ?_ ?_)
    · have := mul_nonneg hκ0 (by linarith : 0 ≤ E + τ)
      linarith
    · rw [div_le_iff₀ (hv k), mul_comm]
      linarith
    · rw [div_le_iff₀ (hv k), mul_comm]
      linarith
  refine exc_mono (hXE i) (mul_le_mul_of_nonneg_left ?_ (hv i).le)
  rw [le_div_iff₀ (by linarith)]
  nlinarith

/-! ## C128 -/

variable {n : ℕ} (inv : (Fin n → Fin n → K) → Except Err (Fin n → Fin n → K))
  (A : Fin n → Fin n → Iv K) (b : Fin n → Iv K)

/-- What the run of `Gauss_Seidel` amounts to once the preconditioned matrix is seen to be diagonally dominant. -/
theorem gaussSeidel_run (x0 : Option (Fin n → Iv K)) (C : Option (Precond K n)) (D : Precond K n)
    (hD : gsPrecond Rnd.exact inv A C = .ok D) (hDo : ∀ E, D = .iv E → ∀ i j, Ordinary (E i j))
    (hA : ∀ i j, Ordinary (A i j)) (hb : ∀ i, Ordinary (b i)) (start : Fin n → Iv K) (hst : start = gsStart x0)
    (hso : ∀ i, Ordinary (start i)) (x : Fin n → K) (hx : United A b x) (hxs : InVec x start)
    (κ : K) (hκ0 : 0 ≤ κ) (hκ1 : κ ≤ 1) (hm : ∀ k, 0 < (D.mulMat Rnd.exact A k k).mig)
    (v : Fin n → K) (hv : ∀ i, 0 < v i)
    (hκ : ∀ k, (∑ j, if j = k then 0 else (D.mulMat Rnd.exact A k j).mag * v j)
      ≤ κ * ((D.mulMat Rnd.exact A k k).mig * v k))
    (W : K) (hW : ∀ i, (start i).b - (start i).a ≤ v i * W) (tol : K) (N : ℕ)
    (ht : ∀ i, v i * (κ ^ N * W) < tol) (maxiter : ℕ) (hN : N ≤ maxiter) :
    gaussSeidel Rnd.exact inv A b x0 C tol maxiter = gaussSeidel Rnd.exact inv A b x0 C tol N ∧
    ∀ X, gaussSeidel Rnd.exact inv A b x0 C tol N = .ok X →
      ∃ Q, GSState (D.mulMat Rnd.exact A) (D.mulVec Rnd.exact b) Q X x ∧ ∀ i, cheb (X i) (Q i) < tol := by
  obtain ⟨hx', hA', hb'⟩ := precond_solution Rnd.exact D A b hDo hA hb x hx
  have e1 : ((maxiter : ℤ) + 1).toNat = maxiter + 1 := by omega
  have e2 : ((N : ℤ) + 1).toNat = N + 1 := by omega
  unfold gaussSeidel
  rw [hD]
  dsimp only
  rw [e1, e2, ← hst]
  cases inv (compmat (D.mulMat Rnd.exact A)) with
  | error e => exact ⟨rfl, fun X h => by cases h⟩
  | ok B =>
    dsimp only
    by_cases ht' : hTestGS Rnd.exact (D.mulMat Rnd.exact A) B = true
    · rw [if_pos ht', if_pos ht']
      exact gs_run hA' hb' hx' κ hκ0 hκ1 hm v hv hκ tol start _ hso hxs W hW N ht maxiter hN
    · rw [if_neg ht', if_neg ht']
      exact ⟨rfl, fun X h => by cases h⟩

/-- C128: when the preconditioned matrix is diagonally dominant with the ratio `κ` (in units `v`), the number of
passes needed is known before the call: any limit `maxiter ≥ N` with `v_i κ ^ N W < tol`, where the start box
has widths at most `v_i W`, gives the same answer. -/
theorem C128_gauss_seidel_stops (x0 : Option (Fin n → Iv K)) (C : Option (Precond K n)) (D : Precond K n)
    (hD : gsPrecond Rnd.exact inv A C = .ok D) (hDo : ∀ E, D = .iv E → ∀ i j, Ordinary (E i j))
    (hA : ∀ i j, Ordinary (A i j)) (hb : ∀ i, Ordinary (b i)) (start : Fin n → Iv K)
    (hst : start = match x0 with | none => fun _ => ⟨.classical, -1000, 1000⟩ | some X => X)
    (hso : ∀ i, Ordinary (start i)) (x : Fin n → K) (hx : United A b x) (hxs : InVec x start)
    (κ : K) (hκ0 : 0 ≤ κ) (hκ1 : κ ≤ 1) (hm : ∀ k, 0 < (D.mulMat Rnd.exact A k k).mig)
    (v : Fin n → K) (hv : ∀ i, 0 < v i)
    (hκ : ∀ k, (∑ j, if j = k then 0 else (D.mulMat Rnd.exact A k j).mag * v j)
      ≤ κ * ((D.mulMat Rnd.exact A k k).mig * v k))
    (W : K) (hW : ∀ i, (start i).b - (start i).a ≤ v i * W) (tol : K) (N : ℕ)
    (ht : ∀ i, v i * (κ ^ N * W) < tol) (maxiter : ℕ) (hN : N ≤ maxiter) :
    gaussSeidel Rnd.exact inv A b x0 C tol maxiter = gaussSeidel Rnd.exact inv A b x0 C tol N :=
  (gaussSeidel_run inv A b x0 C D hD hDo hA hb start (by rw [hst]; cases x0 <;> rfl) hso x hx hxs κ hκ0 hκ1 hm v hv hκ
    W hW tol N ht maxiter hN).1

/-- C128: the answer is bounded by the data alone, however large the start box was. -/
theorem C128_gauss_seidel_size (x0 : Option (Fin n → Iv K)) (C : Option (Precond K n)) (D : Precond K n)
    (hD : gsPrecond Rnd.exact inv A C = .ok D) (hDo : ∀ E, D = .iv E → ∀ i j, Ordinary (E i j))
    (hA : ∀ i j, Ordinary (A i j)) (hb : ∀ i, Ordinary (b i)) (start : Fin n → Iv K)
    (hst : start = match x0 with | none => fun _ => ⟨.classical, -1000, 1000⟩ | some X => X)
    (hso : ∀ i, Ordinary (start i)) (x : Fin n → K) (hx : United A b x) (hxs : InVec x start)
    (κ : K) (hκ0 : 0 ≤ κ) (hκ1 : κ < 1) (hm : ∀ k, 0 < (D.mulMat Rnd.exact A k k).mig)
    (v : Fin n → K) (hv : ∀ i, 0 < v i)
    (hκ : ∀ k, (∑ j, if j = k then 0 else (D.mulMat Rnd.exact A k j).mag * v j)
      ≤ κ * ((D.mulMat Rnd.exact A k k).mig * v k))
    (W : K) (hW : ∀ i, (start i).b - (start i).a ≤ v i * W) (tol : K) (N : ℕ)
    (ht : ∀ i, v i * (κ ^ N * W) < tol) (maxiter : ℕ) (hN : N ≤ maxiter) (τ : K) (hτ : ∀ i, tol ≤ v i * τ) (β : K)
    (hβ : ∀ k, (D.mulVec Rnd.exact b k).mag ≤ β * ((D.mulMat Rnd.exact A k k).mig * v k))
    (X : Fin n → Iv K) (hX : gaussSeidel Rnd.exact inv A b x0 C tol maxiter = .ok X) :
    ∀ i, ∀ t ∈ X i, |t| ≤ v i * ((β + κ * τ) / (1 - κ)) := by
  obtain ⟨r1, r2⟩ := gaussSeidel_run inv A b x0 C D hD hDo hA hb start (by rw [hst]; cases x0 <;> rfl) hso x hx
    hxs κ hκ0 hκ1.le hm v hv hκ W hW tol N ht maxiter hN
  obtain ⟨Q, S, hQ⟩ := r2 X (r1 ▸ hX)
  obtain ⟨hx', hA', hb'⟩ := precond_solution Rnd.exact D A b hDo hA hb x hx
  intro i t hti
  have hβ0 : 0 ≤ β := by
    have := (mag_nn _ (hb' i)).trans (hβ i)
    exact nonneg_of_mul_nonneg_left this (mul_pos (hm i) (hv i))
  have hfix : ∀ k, gsBar Rnd.exact (D.mulMat Rnd.exact A) (fun _ => (zeroIv : Iv K)) (fun _ => zeroIv)
      (fun _ => zeroIv) k = .ok zeroIv := by
    intro k
    have h0 : ¬ (0 : K) ∈ D.mulMat Rnd.exact A k k := fun h0 => by
      have := ((C20_characteristics _ (hA' k k)).1 0 h0).1
      rw [abs_zero] at this
      exact absurd (hm k) (not_lt.mpr this)
    have o2 := subSum_ordinary _ (subSum_ordinary (zeroIv : Iv K) ordinary_zero
        ((List.finRange n).filter fun j => j < k)
        (fun j => (D.mulMat Rnd.exact A k j).mul Rnd.exact zeroIv)
        (fun j _ => C02_mul_ordinary _ _ _ (hA' k j) ordinary_zero))
      ((List.finRange n).filter fun j => k < j)
      (fun j => (D.mulMat Rnd.exact A k j).mul Rnd.exact zeroIv)
      (fun j _ => C02_mul_ordinary _ _ _ (hA' k j) ordinary_zero)
    obtain ⟨Z, hZ, hZo⟩ := ((C03_div_error_iff Rnd.exact _ _ o2 (hA' k k)).2).mpr h0
    have hbar : gsBar Rnd.exact (D.mulMat Rnd.exact A) (fun _ => (zeroIv : Iv K)) (fun _ => zeroIv)
      (fun _ => zeroIv) k = .ok Z := hZ
    have z0 : ∀ z ∈ (zeroIv : Iv K), z = 0 := fun z hz => le_antisymm hz.2 hz.1
    obtain ⟨⟨s, _, e1⟩, ⟨s', _, e2⟩⟩ := gsBar_single _ hA' _ _ _ (fun _ => ordinary_zero)
      (fun _ => ordinary_zero) (fun _ => ordinary_zero) k 0 z0 (fun _ => 0)
      (fun j _ s _ z hz => by rw [z0 z hz, mul_zero]) (fun j _ s _ z hz => by rw [z0 z hz, mul_zero]) Z hbar
    rw [hbar]
    have hs : offSum (fun _ : Fin n => (0 : K)) k = 0 := by simp [offSum]
    rw [hs, sub_zero, zero_div] at e1 e2
    have := hZo.1
    obtain ⟨c, za, zb⟩ := Z
    simp only at this e1 e2
    rw [this, e1, e2]
    rfl
  have hn := gs_near (V := fun _ => (zeroIv : Iv K)) (b' := fun _ => zeroIv) hA' hb' (fun _ => ordinary_zero)
    (fun _ => ordinary_zero) hx' κ hκ0 hκ1 hm v hv hκ S tol τ hτ hQ β hβ0 (fun k => (D.mulVec Rnd.exact b k).mag)
    (fun k => mag_nn _ (hb' k)) hβ
    (fun k => by
      obtain ⟨g1, g2⟩ := (mag_le_iff (hb' k)).mp (le_refl _)
      exact ⟨by show (0 : K) - _ ≤ _; linarith, by show _ ≤ (0 : K) + _; linarith⟩) hfix i
  have n1 : (0 : K) - v i * ((β + κ * τ) / (1 - κ)) ≤ (X i).a := hn.1
  have n2 : (X i).b ≤ (0 : K) + v i * ((β + κ * τ) / (1 - κ)) := hn.2
  have t1 : (X i).a ≤ t := hti.1
  have t2 : t ≤ (X i).b := hti.2
  rw [abs_le]
  constructor <;> linarith

/-- C128: for a system of numbers (after the preconditioning) both ends of the answer are within
`v_i κ τ / (1 - κ)` of the solution. -/
theorem C128_gauss_seidel_point (x0 : Option (Fin n → Iv K)) (C : Option (Precond K n)) (D : Precond K n)
    (hD : gsPrecond Rnd.exact inv A C = .ok D) (hDo : ∀ E, D = .iv E → ∀ i j, Ordinary (E i j))
    (hA : ∀ i j, Ordinary (A i j)) (hb : ∀ i, Ordinary (b i)) (start : Fin n → Iv K)
    (hst : start = match x0 with | none => fun _ => ⟨.classical, -1000, 1000⟩ | some X => X)
    (hso : ∀ i, Ordinary (start i)) (x : Fin n → K) (hx : United A b x) (hxs : InVec x start)
    (κ : K) (hκ0 : 0 ≤ κ) (hκ1 : κ < 1) (hm : ∀ k, 0 < (D.mulMat Rnd.exact A k k).mig)
    (v : Fin n → K) (hv : ∀ i, 0 < v i)
    (hκ : ∀ k, (∑ j, if j = k then 0 else (D.mulMat Rnd.exact A k j).mag * v j)
      ≤ κ * ((D.mulMat Rnd.exact A k k).mig * v k))
    (W : K) (hW : ∀ i, (start i).b - (start i).a ≤ v i * W) (tol : K) (N : ℕ)
    (ht : ∀ i, v i * (κ ^ N * W) < tol) (maxiter : ℕ) (hN : N ≤ maxiter) (τ : K) (hτ : ∀ i, tol ≤ v i * τ)
    (hpA : ∀ i j, (D.mulMat Rnd.exact A i j).a = (D.mulMat Rnd.exact A i j).b)
    (hpb : ∀ i, (D.mulVec Rnd.exact b i).a = (D.mulVec Rnd.exact b i).b)
    (X : Fin n → Iv K) (hX : gaussSeidel Rnd.exact inv A b x0 C tol maxiter = .ok X) :
    ∀ i, ∀ t ∈ X i, |t - x i| ≤ v i * (κ * τ / (1 - κ)) := by
  obtain ⟨r1, r2⟩ := gaussSeidel_run inv A b x0 C D hD hDo hA hb start (by rw [hst]; cases x0 <;> rfl) hso x hx
    hxs κ hκ0 hκ1.le hm v hv hκ W hW tol N ht maxiter hN
  obtain ⟨Q, S, hQ⟩ := r2 X (r1 ▸ hX)
  obtain ⟨hx', hA', hb'⟩ := precond_solution Rnd.exact D A b hDo hA hb x hx
  have hpt : ∀ {Y : Iv K}, Y.a = Y.b → ∀ {s t : K}, s ∈ Y → t ∈ Y → s = t := by
    intro Y hY s t hs ht
    have s1 : Y.a ≤ s := hs.1
    have s2 : s ≤ Y.b := hs.2
    have t1 : Y.a ≤ t := ht.1
    have t2 : t ≤ Y.b := ht.2
    linarith
  obtain ⟨A', hAA, b', hbb, he⟩ := hx'
  have hV : ∀ i, Ordinary (⟨.classical, x i, x i⟩ : Iv K) := fun i => ⟨rfl, le_refl _⟩
  have hVx : ∀ i, ∀ z ∈ (⟨.classical, x i, x i⟩ : Iv K), z = x i := fun i z hz => le_antisymm hz.2 hz.1
  have hfix : ∀ k, gsBar Rnd.exact (D.mulMat Rnd.exact A) (D.mulVec Rnd.exact b)
      (fun i => ⟨.classical, x i, x i⟩) (fun i => ⟨.classical, x i, x i⟩) k = .ok ⟨.classical, x k, x k⟩ := by
    intro k
    have h0 : ¬ (0 : K) ∈ D.mulMat Rnd.exact A k k := fun h0 => by
      have := ((C20_characteristics _ (hA' k k)).1 0 h0).1
      rw [abs_zero] at this
      exact absurd (hm k) (not_lt.mpr this)
    have o2 := subSum_ordinary _ (subSum_ordinary (D.mulVec Rnd.exact b k) (hb' k)
        ((List.finRange n).filter fun j => j < k)
        (fun j => (D.mulMat Rnd.exact A k j).mul Rnd.exact ⟨.classical, x j, x j⟩)
        (fun j _ => C02_mul_ordinary _ _ _ (hA' k j) (hV j)))
      ((List.finRange n).filter fun j => k < j)
      (fun j => (D.mulMat Rnd.exact A k j).mul Rnd.exact ⟨.classical, x j, x j⟩)
      (fun j _ => C02_mul_ordinary _ _ _ (hA' k j) (hV j))
    obtain ⟨Z, hZ, hZo⟩ := ((C03_div_error_iff Rnd.exact _ _ o2 (hA' k k)).2).mpr h0
    have hbar : gsBar Rnd.exact (D.mulMat Rnd.exact A) (D.mulVec Rnd.exact b)
      (fun i => ⟨.classical, x i, x i⟩) (fun i => ⟨.classical, x i, x i⟩) k = .ok Z := hZ
    obtain ⟨⟨s, hs, e1⟩, ⟨s', hs', e2⟩⟩ := gsBar_single _ hA' _ _ _ hb' hV hV k (b' k)
      (fun t ht => hpt (hpb k) ht (hbb k)) (fun j => A' k j * x j)
      (fun j _ s hs z hz => by rw [hVx j z hz, hpt (hpA k j) hs (hAA k j)])
      (fun j _ s hs z hz => by rw [hVx j z hz, hpt (hpA k j) hs (hAA k j)]) Z hbar
    have hsum : b' k - offSum (fun j => A' k j * x j) k = A' k k * x k := by
      have := he k
      unfold apply at this
      rw [sum_split _ k] at this
      rw [← offSum_split, ← this]
      ring
    have hA0 : A' k k ≠ 0 := fun e => h0 (e ▸ hAA k k)
    rw [hsum, hpt (hpA k k) hs (hAA k k), mul_div_cancel_left₀ _ hA0] at e1
    rw [hsum, hpt (hpA k k) hs' (hAA k k), mul_div_cancel_left₀ _ hA0] at e2
    rw [hbar]
    have := hZo.1
    obtain ⟨c, za, zb⟩ := Z
    simp only at this e1 e2
    rw [this, e1, e2]
  intro i t hti
  have hn := gs_near (V := fun i => (⟨.classical, x i, x i⟩ : Iv K)) hA' hb' hb' hV ⟨A', hAA, b', hbb, he⟩ κ hκ0 hκ1
    hm v hv hκ S tol τ hτ hQ 0 (le_refl _) (fun _ => 0) (fun _ => le_refl _) (fun k => by simp)
    (fun k => ⟨by simp, by simp⟩) hfix i
  rw [zero_add] at hn
  have n1 : x i - v i * (κ * τ / (1 - κ)) ≤ (X i).a := hn.1
  have n2 : (X i).b ≤ x i + v i * (κ * τ / (1 - κ)) := hn.2
  have t1 : (X i).a ≤ t := hti.1
  have t2 : t ≤ (X i).b := hti.2
  rw [abs_le]
  constructor <;> linarith

/-- C128: for every H-matrix (after the preconditioning) there is a number of passes after which a larger limit
changes nothing. -/
theorem C128_gauss_seidel_h_matrix [Archimedean K] (x0 : Option (Fin n → Iv K)) (C : Option (Precond K n))
    (D : Precond K n)
    (hD : gsPrecond Rnd.exact inv A C = .ok D) (hDo : ∀ E, D = .iv E → ∀ i j, Ordinary (E i j))
    (hA : ∀ i j, Ordinary (A i j)) (hb : ∀ i, Ordinary (b i)) (start : Fin n → Iv K)
    (hst : start = match x0 with | none => fun _ => ⟨.classical, -1000, 1000⟩ | some X => X)
    (hso : ∀ i, Ordinary (start i)) (x : Fin n → K) (hx : United A b x) (hxs : InVec x start)
    (v : Fin n → K) (hv : ∀ i, 0 < v i)
    (hH : ∀ k, (∑ j, if j = k then 0 else (D.mulMat Rnd.exact A k j).mag * v j)
      < (D.mulMat Rnd.exact A k k).mig * v k) (tol : K) (ht : 0 < tol) :
    ∃ N : ℕ, ∀ maxiter : ℕ, N ≤ maxiter →
      gaussSeidel Rnd.exact inv A b x0 C tol maxiter = gaussSeidel Rnd.exact inv A b x0 C tol N := by
  obtain ⟨_, hA', _⟩ := precond_solution Rnd.exact D A b hDo hA hb x hx
  set M := D.mulMat Rnd.exact A with hM
  set q : Fin n → K := fun k => (∑ j, if j = k then 0 else (M k j).mag * v j) / ((M k k).mig * v k) with hq
  have hoff : ∀ k, 0 ≤ ∑ j, (if j = k then 0 else (M k j).mag * v j) := fun k =>
    Finset.sum_nonneg fun j _ => by
      split_ifs
      · exact le_refl _
      · exact mul_nonneg (mag_nn _ (hA' k j)) (hv j).le
  have hpos : ∀ k, 0 < (M k k).mig * v k := fun k => (hoff k).trans_lt (hH k)
  have hm : ∀ k, 0 < (M k k).mig := fun k => (mul_pos_iff_of_pos_right (hv k)).mp (hpos k)
  obtain ⟨κ, hκ0, hκ1, hκq⟩ : ∃ κ : K, 0 ≤ κ ∧ κ < 1 ∧ ∀ k, q k ≤ κ := by
    rcases Nat.eq_zero_or_pos n with h0 | hn
    · exact ⟨0, le_refl _, zero_lt_one, fun k => absurd k.isLt (by omega)⟩
    · obtain ⟨k, _, hk⟩ := Finset.exists_max_image (Finset.univ : Finset (Fin n)) q ⟨⟨0, hn⟩, Finset.mem_univ _⟩
      exact ⟨q k, div_nonneg (hoff k) (hpos k).le, (div_lt_one (hpos k)).mpr (hH k),
        fun j => hk j (Finset.mem_univ _)⟩
  obtain ⟨W, hW0, hW⟩ : ∃ W : K, 0 ≤ W ∧ ∀ i, (start i).b - (start i).a ≤ v i * W := by
    refine ⟨∑ i, ((start i).b - (start i).a) / v i, Finset.sum_nonneg fun i _ =>
      div_nonneg (sub_nonneg.mpr (hso i).2) (hv i).le, fun i => ?_⟩
    rw [mul_comm, ← div_le_iff₀ (hv i)]
    exact Finset.single_le_sum (f := fun i => ((start i).b - (start i).a) / v i)
      (fun j _ => div_nonneg (sub_nonneg.mpr (hso j).2) (hv j).le) (Finset.mem_univ i)
  have hV : 0 ≤ ∑ i, v i := Finset.sum_nonneg fun i _ => (hv i).le
  obtain ⟨N, hN⟩ := exists_pow_lt_of_lt_one (div_pos ht (by positivity : 0 < (∑ i, v i) * W + 1)) hκ1
  refine ⟨N, fun maxiter hmax => C128_gauss_seidel_stops inv A b x0 C D hD hDo hA hb start hst hso x hx hxs κ hκ0
    hκ1.le hm v hv (fun k => ?_) W hW tol N (fun i => ?_) maxiter hmax⟩
  · have := hκq k
    rw [hq] at this
    exact (div_le_iff₀ (hpos k)).mp this
  · rw [lt_div_iff₀ (by positivity)] at hN
    have h1 : v i ≤ ∑ i, v i := Finset.single_le_sum (f := v) (fun j _ => (hv j).le) (Finset.mem_univ i)
    have h2 : 0 ≤ κ ^ N := pow_nonneg hκ0 N
    have h3 : v i * (κ ^ N * W) ≤ (∑ i, v i) * (κ ^ N * W) :=
      mul_le_mul_of_nonneg_right h1 (mul_nonneg h2 hW0)
    calc v i * (κ ^ N * W) ≤ (∑ i, v i) * (κ ^ N * W) := h3
      _ = κ ^ N * ((∑ i, v i) * W) := by ring
      _ ≤ κ ^ N * ((∑ i, v i) * W + 1) := mul_le_mul_of_nonneg_left (by linarith) h2
      _ < tol := hN

/-! ### A system to which the theorems apply -/

/-- `[[4, 5], [-1, 1]], [[0, 1], [3, 4]]`. -/
def gsExA : Fin 2 → Fin 2 → Iv ℚ :=
  ![![⟨.classical, 4, 5⟩, ⟨.classical, -1, 1⟩], ![⟨.classical, 0, 1⟩, ⟨.classical, 3, 4⟩]]

def gsExb : Fin 2 → Iv ℚ := ![⟨.classical, 1, 2⟩, ⟨.classical, 1, 2⟩]

/-- The unit matrix as the preconditioner `C`. -/
def gsExC : Precond ℚ 2 := .point ![![1, 0], ![0, 1]]

/-- The inverse of the comparison matrix `[[4, -1], [-1, 3]]`. -/
def gsExInv : (Fin 2 → Fin 2 → ℚ) → Except Err (Fin 2 → Fin 2 → ℚ) := fun _ =>
  .ok ![![3 / 11, 1 / 11], ![1 / 11, 4 / 11]]

theorem gsEx_united : United gsExA gsExb ![1 / 4, 1 / 4] := by
  refine ⟨![![4, 0], ![0, 4]], ?_, ![1, 1], ?_, ?_⟩
  · intro i j
    fin_cases i <;> fin_cases j <;> exact ⟨by norm_num [gsExA], by norm_num [gsExA]⟩
  · intro i
    fin_cases i <;> exact ⟨by norm_num [gsExb], by norm_num [gsExb]⟩
  · intro i
    fin_cases i <;> norm_num [apply, Fin.sum_univ_two]

theorem gsEx_ordinary : (∀ i j, Ordinary (gsExA i j)) ∧ ∀ i, Ordinary (gsExb i) := by
  constructor
  · intro i j
    fin_cases i <;> fin_cases j <;> exact ⟨rfl, by norm_num [gsExA]⟩
  · intro i
    fin_cases i <;> exact ⟨rfl, by norm_num [gsExb]⟩

theorem gsEx_dominant : (∀ k, 0 < (gsExC.mulMat Rnd.exact gsExA k k).mig) ∧
    (∀ k, (∑ j, if j = k then 0 else (gsExC.mulMat Rnd.exact gsExA k j).mag)
      ≤ 1 / 3 * (gsExC.mulMat Rnd.exact gsExA k k).mig) ∧
    ∀ k, (gsExC.mulVec Rnd.exact gsExb k).mag ≤ 2 / 3 * (gsExC.mulMat Rnd.exact gsExA k k).mig := by
  decide +kernel

/-- Fifteen passes from the default box reach the tolerance `1/1000`: a larger limit changes nothing. -/
example (maxiter : ℕ) (h : 14 ≤ maxiter) :
    gaussSeidel Rnd.exact gsExInv gsExA gsExb none (some gsExC) (1 / 1000) maxiter
      = gaussSeidel Rnd.exact gsExInv gsExA gsExb none (some gsExC) (1 / 1000) 14 :=
  C128_gauss_seidel_stops gsExInv gsExA gsExb none (some gsExC) gsExC rfl (fun _ h => by cases h)
    gsEx_ordinary.1 gsEx_ordinary.2 _ rfl (fun _ => ⟨rfl, by norm_num⟩) _ gsEx_united
    (fun i => by fin_cases i <;> exact ⟨by norm_num, by norm_num⟩) (1 / 3) (by norm_num) (by norm_num)
    gsEx_dominant.1 (fun _ => 1) (fun _ => one_pos) (by simpa using gsEx_dominant.2.1) 2000 (fun _ => by norm_num) _ 14
    (fun _ => by norm_num) maxiter h

/-- The answer is within `[-1.001, 1.001]` although the start box was `[-1000, 1000]`. -/
example (X : Fin 2 → Iv ℚ)
    (hX : gaussSeidel Rnd.exact gsExInv gsExA gsExb none (some gsExC) (1 / 1000) (14 : ℕ) = .ok X) (i : Fin 2)
    (t : ℚ) (ht : t ∈ X i) : |t| ≤ 1001 / 1000 := by
  refine (C128_gauss_seidel_size gsExInv gsExA gsExb none (some gsExC) gsExC rfl (fun _ h => by cases h)
    gsEx_ordinary.1 gsEx_ordinary.2 _ rfl (fun _ => ⟨rfl, by norm_num⟩) _ gsEx_united
    (fun i => by fin_cases i <;> exact ⟨by norm_num, by norm_num⟩) (1 / 3) (by norm_num) (by norm_num)
    gsEx_dominant.1 (fun _ => 1) (fun _ => one_pos) (by simpa using gsEx_dominant.2.1) 2000 (fun _ => by norm_num)
    _ 14 (fun _ => by norm_num) 14 (le_refl _) (1 / 1000) (fun _ => by norm_num) (2 / 3)
    (by simpa using gsEx_dominant.2.2) X hX i t ht).trans (by norm_num)

/-- A matrix that is not diagonally dominant but an H-matrix: `[[1, 1], [2, 3]], [[0, 0], [1, 1]]`. -/
def gsExU : Fin 2 → Fin 2 → Iv ℚ :=
  ![![⟨.classical, 1, 1⟩, ⟨.classical, 2, 3⟩], ![⟨.classical, 0, 0⟩, ⟨.classical, 1, 1⟩]]

example : ∃ N : ℕ, ∀ maxiter : ℕ, N ≤ maxiter →
    gaussSeidel Rnd.exact gsExInv gsExU gsExb none (some gsExC) (1 / 1000) maxiter
      = gaussSeidel Rnd.exact gsExInv gsExU gsExb none (some gsExC) (1 / 1000) N := by
  refine C128_gauss_seidel_h_matrix gsExInv gsExU gsExb none (some gsExC) gsExC rfl (fun _ h => by cases h) ?_
    gsEx_ordinary.2 _ rfl (fun _ => ⟨rfl, by norm_num⟩) ![-1, 1] ?_
    (fun i => by fin_cases i <;> exact ⟨by norm_num, by norm_num⟩) ![4, 1]
    (fun i => by fin_cases i <;> norm_num) (by decide +kernel) (1 / 1000) (by norm_num)
  · intro i j
    fin_cases i <;> fin_cases j <;> exact ⟨rfl, by norm_num [gsExU]⟩
  · refine ⟨![![1, 2], ![0, 1]], ?_, ![1, 1], ?_, ?_⟩
    · intro i j
      fin_cases i <;> fin_cases j <;> exact ⟨by norm_num [gsExU], by norm_num [gsExU]⟩
    · intro i
      fin_cases i <;> exact ⟨by norm_num [gsExb], by norm_num [gsExb]⟩
    · intro i
      fin_cases i <;> norm_num [apply, Fin.sum_univ_two]

/-- A system of numbers: `4 x + y = 5`, `x + 3 y = 4`; every number in the answer is near the solution `(1, 1)`. -/
def gsExP : Fin 2 → Fin 2 → Iv ℚ :=
  ![![⟨.classical, 4, 4⟩, ⟨.classical, 1, 1⟩], ![⟨.classical, 1, 1⟩, ⟨.classical, 3, 3⟩]]

def gsExPb : Fin 2 → Iv ℚ := ![⟨.classical, 5, 5⟩, ⟨.classical, 4, 4⟩]

example (X : Fin 2 → Iv ℚ)
    (hX : gaussSeidel Rnd.exact gsExInv gsExP gsExPb none (some gsExC) (1 / 1000) (14 : ℕ) = .ok X) (i : Fin 2)
    (t : ℚ) (ht : t ∈ X i) : |t - ![1, 1] i| ≤ 1 / 2000 := by
  refine (C128_gauss_seidel_point gsExInv gsExP gsExPb none (some gsExC) gsExC rfl (fun _ h => by cases h)
    ?_ ?_ _ rfl (fun _ => ⟨rfl, by norm_num⟩) ![1, 1] ?_
    (fun i => by fin_cases i <;> exact ⟨by norm_num, by norm_num⟩) (1 / 3) (by norm_num) (by norm_num)
    (by decide +kernel) (fun _ => 1) (fun _ => one_pos) (by decide +kernel) 2000 (fun _ => by norm_num)
    _ 14 (fun _ => by norm_num) 14 (le_refl _) (1 / 1000) (fun _ => by norm_num)
    (by decide +kernel) (by decide +kernel) X hX i t ht).trans (by norm_num)
  · intro i j
    fin_cases i <;> fin_cases j <;> exact ⟨rfl, by norm_num [gsExP]⟩
  · intro i
    fin_cases i <;> exact ⟨rfl, by norm_num [gsExPb]⟩
  · refine ⟨![![4, 1], ![1, 3]], ?_, ![5, 4], ?_, ?_⟩
    · intro i j
      fin_cases i <;> fin_cases j <;> exact ⟨by norm_num [gsExP], by norm_num [gsExP]⟩
    · intro i
      fin_cases i <;> exact ⟨by norm_num [gsExPb], by norm_num [gsExPb]⟩
    · intro i
      fin_cases i <;> norm_num [apply, Fin.sum_univ_two]

/-- The run does return a box. -/
example : (match gaussSeidel Rnd.exact gsExInv gsExA gsExb none (some gsExC) (1 / 1000) 14 with
    | .ok X => decide (-1 ≤ (X 0).a ∧ (X 1).b ≤ 1)
    | .error _ => false) = true := by
  decide +kernel

end IntvalPy
