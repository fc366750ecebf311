import Verif.PropsRecFun
import Mathlib.Tactic.FieldSimp
import Mathlib.Tactic.Linarith
import Mathlib.Tactic.LinearCombination
import Mathlib.Tactic.NormNum

/-!
# What the value of a recognising functional measures (C131), and how it depends on the data (C132)
-/

set_option autoImplicit false
set_option linter.unusedSectionVars false

namespace IntvalPy.Spec
variable {K : Type*} [Field K]

/-- Both ends moved inwards by `s` (outwards for a negative `s`). -/
def narrowBy (s : K) (X : Iv K) : Iv K := ⟨X.cls, X.a + s, X.b - s⟩

end IntvalPy.Spec

namespace IntvalPy
open Spec

variable {K : Type*} [Field K] [LinearOrder K] [IsStrictOrderedRing K] {m n : ℕ}

theorem narrowBy_mid (s : K) (X : Iv K) : (narrowBy s X).mid Rnd.exact = X.mid Rnd.exact := by
  simp only [narrowBy, Iv.mid, Rnd.exact_nr, id]; ring

theorem narrowBy_rad (s : K) (X : Iv K) : (narrowBy s X).rad Rnd.exact = X.rad Rnd.exact - s := by
  simp only [narrowBy, Iv.rad, Iv.wid, Rnd.exact_nr, id]; ring

theorem npAmin_le_iff {g : Fin m → K} (hm : 0 < m) : ∃ v, npAmin (List.ofFn g) = .ok v ∧ ∀ t, t ≤ v ↔ ∀ i, t ≤ g i := by
  obtain ⟨v, h1, ⟨i, h2⟩, h3⟩ := npAmin_ofFn hm g
  exact ⟨v, h1, fun t => ⟨fun h j => h.trans (h3 j), fun h => h2 ▸ h i⟩⟩

/-- A minimum is at least `t` when the minimum of the shifted numbers is at least zero. -/
theorem margin_of_zero {g : Fin m → K} {P : K → Prop} (hm : 0 < m)
    (h : ∀ t, ∃ v, npAmin (List.ofFn fun i => g i - t) = .ok v ∧ (0 ≤ v ↔ P t)) :
    ∃ v, npAmin (List.ofFn g) = .ok v ∧ ∀ t, t ≤ v ↔ P t := by
  obtain ⟨v, h1, h2⟩ := npAmin_le_iff (g := g) hm
  refine ⟨v, h1, fun t => ?_⟩
  obtain ⟨v', h3, h4⟩ := npAmin_le_iff (g := fun i => g i - t) hm
  obtain ⟨v'', h5, h6⟩ := h t
  rw [h3] at h5
  cases h5
  rw [h2 t, ← h6, h4 0]
  exact forall_congr' fun i => by rw [sub_nonneg]

/-- **C131**: the value of `Tol` at `x` is the largest number `t` such that `x` stays a tolerable solution when the right-hand
side of row `i` is narrowed by `t / w_i` on both sides (widened, when `t` is negative). -/
theorem C131_tol_margin (hm : 0 < m) (hn : 0 < n) (A : Fin m → Fin n → Iv K) (b : Fin m → Iv K)
    (w : Fin m → K) (x : Fin n → K) (hA : ∀ i j, Ordinary (A i j)) (hw : ∀ i, 0 < w i) :
    ∃ v, tolValue Rnd.exact A b w x = .ok v ∧
      ∀ t, t ≤ v ↔ Tolerable A (fun i => narrowBy (t / w i) (b i)) x := by
  rw [tolValue, minOver_ok _ _ fun i => tolConstituent_exact (A i) (b i) (w i) x hn (hA i)]
  refine margin_of_zero hm fun t => ?_
  have h := C30_tol_iff_tolerable hm hn A (fun i => narrowBy (t / w i) (b i)) w x hA hw
  rw [tolValue, minOver_ok _ _ fun i => tolConstituent_exact (A i) _ (w i) x hn (hA i)] at h
  convert h using 6 with v
  funext i
  rw [narrowBy_mid, narrowBy_rad]
  have : w i * (t / w i) = t := by field_simp [(hw i).ne']
  linear_combination this

/-- **C131**: the value of `Uni` at `x` is the largest number `t` such that `x` stays in the united solution set when the
right-hand side of row `i` is narrowed by `t / w_i` on both sides. -/
theorem C131_uni_margin (hm : 0 < m) (hn : 0 < n) (A : Fin m → Fin n → Iv K) (b : Fin m → Iv K)
    (w : Fin m → K) (x : Fin n → K) (hA : ∀ i j, Ordinary (A i j)) (hw : ∀ i, 0 < w i) :
    ∃ v, uniValue Rnd.exact A b w x = .ok v ∧
      ∀ t, t ≤ v ↔ United A (fun i => narrowBy (t / w i) (b i)) x := by
  rw [uniValue, minOver_ok _ _ fun i => uniConstituent_exact (A i) (b i) (w i) x hn (hA i)]
  refine margin_of_zero hm fun t => ?_
  have h := C31_uni_iff_united hm hn A (fun i => narrowBy (t / w i) (b i)) w x hA hw
  rw [uniValue, minOver_ok _ _ fun i => uniConstituent_exact (A i) _ (w i) x hn (hA i)] at h
  convert h using 6 with v
  funext i
  rw [narrowBy_mid, narrowBy_rad]
  have : w i * (t / w i) = t := by field_simp [(hw i).ne']
  linear_combination this

/-- One row of `Uss`: the smaller of the two overlaps of the row product with the right-hand side. -/
theorem ussConstituent_min (row : Fin n → Iv K) (b : Iv K) (w : K) (x : Fin n → K) :
    ussConstituent row b w x =
      w * min (b.b - (rowMid row x - rowRad row x)) (rowMid row x + rowRad row x - b.a) := by
  unfold ussConstituent
  congr 1
  rw [← mid_sub_rad b, ← mid_add_rad b]
  change _ + rowRad row x - |_ - rowMid row x| = _
  rcases le_total 0 (b.mid Rnd.exact - rowMid row x) with h | h
  · rw [abs_of_nonneg h, min_eq_right (by linarith)]; ring
  · rw [abs_of_nonpos h, min_eq_left (by linarith)]; ring

/-- **C131**: the value of `Uss` at `x`: `t ≤ Uss(x)` says the same with the united solution set, as long as the narrowed
right-hand sides are not empty. -/
theorem C131_uss_margin (hm : 0 < m) (hn : 0 < n) (A : Fin m → Fin n → Iv K) (b : Fin m → Iv K)
    (w : Fin m → K) (x : Fin n → K) (hA : ∀ i j, Ordinary (A i j)) (hw : ∀ i, 0 < w i) :
    ∃ v, ussValue A b w x = .ok v ∧
      ∀ t, (∀ i, (b i).a + t / w i ≤ (b i).b - t / w i) →
        (t ≤ v ↔ United A (fun i => narrowBy (t / w i) (b i)) x) := by
  obtain ⟨v, h1, h2⟩ := npAmin_le_iff (g := fun i => ussConstituent (A i) (b i) (w i) x) hm
  refine ⟨v, h1, fun t ht => ?_⟩
  rw [h2 t, united_iff hn _ _ _ hA]
  refine forall_congr' fun i => ?_
  rw [ussConstituent_min, ← div_le_iff₀' (hw i), le_min_iff]
  have := ht i
  simp only [narrowBy]
  constructor
  · rintro ⟨h1, h2⟩; exact ⟨this, by linarith, by linarith⟩
  · rintro ⟨_, h1, h2⟩; exact ⟨by linarith, by linarith⟩

/-- **C131**: the maximum of `Tol` is the largest `t` for which the system narrowed by `t / w_i` still has tolerable solutions;
when it is negative it says by how much the right-hand sides must be widened to have any. -/
theorem C131_tol_max (hm : 0 < m) (hn : 0 < n) (A : Fin m → Fin n → Iv K) (b : Fin m → Iv K)
    (w : Fin m → K) (hA : ∀ i j, Ordinary (A i j)) (hw : ∀ i, 0 < w i) (x : Fin n → K) (T : K)
    (hT : tolValue Rnd.exact A b w x = .ok T) (hmax : ∀ y v, tolValue Rnd.exact A b w y = .ok v → v ≤ T) (t : K) :
    (∃ y, Tolerable A (fun i => narrowBy (t / w i) (b i)) y) ↔ t ≤ T := by
  constructor
  · rintro ⟨y, hy⟩
    obtain ⟨v, h1, h2⟩ := C131_tol_margin hm hn A b w y hA hw
    exact ((h2 t).mpr hy).trans (hmax y v h1)
  · intro h
    obtain ⟨v, h1, h2⟩ := C131_tol_margin hm hn A b w x hA hw
    rw [hT] at h1
    cases h1
    exact ⟨x, (h2 t).mp h⟩

/-- **C131**: the same for `Uni` and the united solution set. -/
theorem C131_uni_max (hm : 0 < m) (hn : 0 < n) (A : Fin m → Fin n → Iv K) (b : Fin m → Iv K)
    (w : Fin m → K) (hA : ∀ i j, Ordinary (A i j)) (hw : ∀ i, 0 < w i) (x : Fin n → K) (T : K)
    (hT : uniValue Rnd.exact A b w x = .ok T) (hmax : ∀ y v, uniValue Rnd.exact A b w y = .ok v → v ≤ T) (t : K) :
    (∃ y, United A (fun i => narrowBy (t / w i) (b i)) y) ↔ t ≤ T := by
  constructor
  · rintro ⟨y, hy⟩
    obtain ⟨v, h1, h2⟩ := C131_uni_margin hm hn A b w y hA hw
    exact ((h2 t).mpr hy).trans (hmax y v h1)
  · intro h
    obtain ⟨v, h1, h2⟩ := C131_uni_margin hm hn A b w x hA hw
    rw [hT] at h1
    cases h1
    exact ⟨x, (h2 t).mp h⟩

/-- `[1,2] x = [1,4]`: the value `0` at `x = 1` allows no narrowing; widened by `2` the point `3` becomes tolerable. -/
example : Tolerable (fun _ _ => ⟨.classical, 1, 2⟩ : Fin 1 → Fin 1 → Iv ℚ)
    (fun _ => narrowBy (-2 / 1) ⟨.classical, 1, 4⟩) (fun _ => 3) := by
  obtain ⟨v, h1, h2⟩ := C131_tol_margin (K := ℚ) one_pos one_pos (fun _ _ => ⟨.classical, 1, 2⟩)
    (fun _ => ⟨.classical, 1, 4⟩) (fun _ => 1) (fun _ => 3) (fun _ _ => ⟨rfl, by norm_num⟩) (fun _ => one_pos)
  have h3 : tolValue (Rnd.exact : Rnd ℚ) (fun _ _ => ⟨.classical, 1, 2⟩ : Fin 1 → Fin 1 → Iv ℚ)
      (fun _ => ⟨.classical, 1, 4⟩) (fun _ => 1) (fun _ => 3) = .ok (-2) := by decide +kernel
  rw [h3] at h1
  cases h1
  exact (h2 (-2)).mp (le_refl _)

/-! ## C132 -/

theorem sub_ends_iff {X Y : Iv K} (hX : X.a ≤ X.b) : Sub X Y ↔ Y.a ≤ X.a ∧ X.b ≤ Y.b :=
  ⟨fun h => ⟨(h X.a ⟨le_refl _, hX⟩).1, (h X.b ⟨hX, le_refl _⟩).2⟩,
    fun h _ hs => ⟨h.1.trans hs.1, le_trans hs.2 h.2⟩⟩

/-- **C132**: a wider matrix or a narrower right-hand side never increases `Tol`. -/
theorem C132_tol_monotone (hm : 0 < m) (hn : 0 < n) (A A' : Fin m → Fin n → Iv K) (b b' : Fin m → Iv K)
    (w : Fin m → K) (x : Fin n → K) (hA : ∀ i j, Ordinary (A i j)) (hA' : ∀ i j, Ordinary (A' i j))
    (hb' : ∀ i, Ordinary (b' i)) (hw : ∀ i, 0 < w i)
    (hAA : ∀ i j, Sub (A i j) (A' i j)) (hbb : ∀ i, Sub (b' i) (b i)) :
    ∃ v v', tolValue Rnd.exact A b w x = .ok v ∧ tolValue Rnd.exact A' b' w x = .ok v' ∧ v' ≤ v := by
  obtain ⟨v, h1, h2⟩ := C131_tol_margin hm hn A b w x hA hw
  obtain ⟨v', h3, h4⟩ := C131_tol_margin hm hn A' b' w x hA' hw
  refine ⟨v, v', h1, h3, (h2 v').mpr fun P hP i => ?_⟩
  obtain ⟨g1, g2⟩ := (h4 v').mp (le_refl _) P (fun i j => hAA i j _ (hP i j)) i
  obtain ⟨e1, e2⟩ := (sub_ends_iff (hb' i).2).mp (hbb i)
  simp only [narrowBy] at g1 g2
  exact ⟨by simp only [narrowBy]; linarith, by simp only [narrowBy]; linarith⟩

/-- **C132**: a wider matrix or a wider right-hand side never decreases `Uni`. -/
theorem C132_uni_monotone (hm : 0 < m) (hn : 0 < n) (A A' : Fin m → Fin n → Iv K) (b b' : Fin m → Iv K)
    (w : Fin m → K) (x : Fin n → K) (hA : ∀ i j, Ordinary (A i j)) (hA' : ∀ i j, Ordinary (A' i j))
    (hb : ∀ i, Ordinary (b i)) (hw : ∀ i, 0 < w i)
    (hAA : ∀ i j, Sub (A i j) (A' i j)) (hbb : ∀ i, Sub (b i) (b' i)) :
    ∃ v v', uniValue Rnd.exact A b w x = .ok v ∧ uniValue Rnd.exact A' b' w x = .ok v' ∧ v ≤ v' := by
  obtain ⟨v, h1, h2⟩ := C131_uni_margin hm hn A b w x hA hw
  obtain ⟨v', h3, h4⟩ := C131_uni_margin hm hn A' b' w x hA' hw
  refine ⟨v, v', h1, h3, (h4 v).mpr ?_⟩
  obtain ⟨P, hP, p, hp, he⟩ := (h2 v).mp (le_refl _)
  refine ⟨P, fun i j => hAA i j _ (hP i j), p, fun i => ?_, he⟩
  obtain ⟨g1, g2⟩ := hp i
  obtain ⟨e1, e2⟩ := (sub_ends_iff (hb i).2).mp (hbb i)
  simp only [narrowBy] at g1 g2
  exact ⟨by simp only [narrowBy]; linarith, by simp only [narrowBy]; linarith⟩

theorem row_bounds_sub (hn : 0 < n) {r r' : Fin n → Iv K} (h : ∀ j, Ordinary (r j)) (h' : ∀ j, Ordinary (r' j))
    (hs : ∀ j, Sub (r j) (r' j)) (x : Fin n → K) : rowMid r' x - rowRad r' x ≤ rowMid r x - rowRad r x ∧
      rowMid r x + rowRad r x ≤ rowMid r' x + rowRad r' x := by
  have hr := rowRad_nonneg h x
  obtain ⟨P, hP, e⟩ := (row_values r x hn h (rowMid r x - rowRad r x)).mpr ⟨le_refl _, by linarith⟩
  obtain ⟨Q, hQ, f⟩ := (row_values r x hn h (rowMid r x + rowRad r x)).mpr ⟨by linarith, le_refl _⟩
  exact ⟨((row_values r' x hn h' _).mp ⟨P, fun j => hs j _ (hP j), e⟩).1,
    ((row_values r' x hn h' _).mp ⟨Q, fun j => hs j _ (hQ j), f⟩).2⟩

/-- **C132**: a wider matrix or a wider right-hand side never decreases `Uss`. -/
theorem C132_uss_monotone (hm : 0 < m) (hn : 0 < n) (A A' : Fin m → Fin n → Iv K) (b b' : Fin m → Iv K)
    (w : Fin m → K) (x : Fin n → K) (hA : ∀ i j, Ordinary (A i j)) (hA' : ∀ i j, Ordinary (A' i j))
    (hb : ∀ i, Ordinary (b i)) (hw : ∀ i, 0 < w i)
    (hAA : ∀ i j, Sub (A i j) (A' i j)) (hbb : ∀ i, Sub (b i) (b' i)) :
    ∃ v v', ussValue A b w x = .ok v ∧ ussValue A' b' w x = .ok v' ∧ v ≤ v' := by
  obtain ⟨v, h1, h2⟩ := npAmin_le_iff (g := fun i => ussConstituent (A i) (b i) (w i) x) hm
  obtain ⟨v', h3, h4⟩ := npAmin_le_iff (g := fun i => ussConstituent (A' i) (b' i) (w i) x) hm
  refine ⟨v, v', h1, h3, (h4 v).mpr fun i => ((h2 v).mp (le_refl _) i).trans ?_⟩
  rw [ussConstituent_min, ussConstituent_min]
  obtain ⟨e1, e2⟩ := (sub_ends_iff (hb i).2).mp (hbb i)
  obtain ⟨g1, g2⟩ := row_bounds_sub hn (hA i) (hA' i) (hAA i) x
  exact mul_le_mul_of_nonneg_left (min_le_min (by linarith) (by linarith)) (hw i).le

/-- **C132**: at every point `Tol ≤ Uni ≤ Uss`. -/
theorem C132_order (hm : 0 < m) (hn : 0 < n) (A : Fin m → Fin n → Iv K) (b : Fin m → Iv K)
    (w : Fin m → K) (x : Fin n → K) (hA : ∀ i j, Ordinary (A i j)) (hw : ∀ i, 0 < w i) :
    ∃ t u s, tolValue Rnd.exact A b w x = .ok t ∧ uniValue Rnd.exact A b w x = .ok u ∧ ussValue A b w x = .ok s ∧
      t ≤ u ∧ u ≤ s := by
  obtain ⟨t, h1, h2⟩ := C131_tol_margin hm hn A b w x hA hw
  obtain ⟨u, h3, h4⟩ := C131_uni_margin hm hn A b w x hA hw
  obtain ⟨s, h5, h6⟩ := C131_uss_margin hm hn A b w x hA hw
  refine ⟨t, u, s, h1, h3, h5, (h4 t).mpr ?_, ?_⟩
  · have ha : InMat (fun i j => (A i j).a) A := fun i j => ⟨le_refl _, (hA i j).2⟩
    exact ⟨_, ha, _, (h2 t).mp (le_refl _) _ ha, fun _ => rfl⟩
  · have hu := (h4 u).mp (le_refl _)
    refine (h6 u fun i => ?_).mpr hu
    obtain ⟨_, _, p, hp, _⟩ := hu
    exact le_trans (hp i).1 (hp i).2

/-- The three values at the point `3` of `[1,2] x = [1,4]`: `-2`, `1` and `1`; at `2`: `0`, `3/2` and `2`. -/
example : tolValue (Rnd.exact : Rnd ℚ) (fun _ _ => ⟨.classical, 1, 2⟩ : Fin 1 → Fin 1 → Iv ℚ)
      (fun _ => ⟨.classical, 1, 4⟩) (fun _ => 1) (fun _ => 2) = .ok 0 ∧
    uniValue (Rnd.exact : Rnd ℚ) (fun _ _ => ⟨.classical, 1, 2⟩ : Fin 1 → Fin 1 → Iv ℚ)
      (fun _ => ⟨.classical, 1, 4⟩) (fun _ => 1) (fun _ => 2) = .ok (3 / 2) ∧
    ussValue (fun _ _ => ⟨.classical, 1, 2⟩ : Fin 1 → Fin 1 → Iv ℚ)
      (fun _ => ⟨.classical, 1, 4⟩) (fun _ => 1) (fun _ => 2) = .ok 2 := by
  refine ⟨?_, ?_, ?_⟩ <;> decide +kernel

/-- The hypotheses of the theorems on wider data hold for `[1,2] x = [1,4]` and `[0,3] x = [2,3]`. -/
example (x : Fin 1 → ℚ) : ∃ v v', tolValue Rnd.exact (fun _ _ => ⟨.classical, 1, 2⟩ : Fin 1 → Fin 1 → Iv ℚ)
      (fun _ => ⟨.classical, 1, 4⟩) (fun _ => 1) x = .ok v ∧
    tolValue Rnd.exact (fun _ _ => ⟨.classical, 0, 3⟩ : Fin 1 → Fin 1 → Iv ℚ)
      (fun _ => ⟨.classical, 2, 3⟩) (fun _ => 1) x = .ok v' ∧ v' ≤ v :=
  C132_tol_monotone one_pos one_pos _ _ _ _ _ x (fun _ _ => ⟨rfl, by norm_num⟩) (fun _ _ => ⟨rfl, by norm_num⟩)
    (fun _ => ⟨rfl, by norm_num⟩) (fun _ => one_pos)
    (fun _ _ => (sub_ends_iff (by norm_num)).mpr ⟨by norm_num, by norm_num⟩)
    (fun _ => (sub_ends_iff (by norm_num)).mpr ⟨by norm_num, by norm_num⟩)

end IntvalPy
