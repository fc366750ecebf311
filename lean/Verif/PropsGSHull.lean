import Verif.PropsGSConv
import Mathlib.LinearAlgebra.FiniteDimensional.Lemmas
import Mathlib.LinearAlgebra.Matrix.ToLin

/-!
# Gauss_Seidel is optimal for interval M-matrices (C130)

A matrix whose entries beside the diagonal are `≤ 0` and whose diagonal is positive and dominant: the lower ends of the
returned box belong, up to the tolerance, to one solution of one system, and so do the upper ends.
-/

set_option autoImplicit false
set_option linter.unusedSectionVars false

namespace IntvalPy
open Spec

variable {K : Type*} [Field K] [LinearOrder K] [IsStrictOrderedRing K]

theorem mul_nonpos_ends {M X : Iv K} (hM : Ordinary M) (hX : Ordinary X) (h : M.b ≤ 0) :
    (∃ s ∈ M, (M.mul Rnd.exact X).b = s * X.a) ∧ ∃ s ∈ M, (M.mul Rnd.exact X).a = s * X.b := by
  obtain ⟨hin, ⟨s, hs, t, ht, e1⟩, ⟨s', hs', t', ht', e2⟩⟩ := C11_mul_range M X hM hX
  refine ⟨⟨s', hs', ?_⟩, ⟨s, hs, ?_⟩⟩
  · have h1 : s' * X.a ≤ (M.mul Rnd.exact X).b := (hin _ ⟨s', hs', X.a, ⟨le_refl _, hX.2⟩, rfl⟩).2
    have h2 : s' * t' ≤ s' * X.a := mul_le_mul_of_nonpos_left ht'.1 (le_trans hs'.2 h)
    exact le_antisymm (e2 ▸ h2) h1
  · have h1 : (M.mul Rnd.exact X).a ≤ s * X.b := (hin _ ⟨s, hs, X.b, ⟨hX.2, le_refl _⟩, rfl⟩).1
    have h2 : s * X.b ≤ s * t := mul_le_mul_of_nonpos_left ht.2 (le_trans hs.2 h)
    exact le_antisymm h1 (e1 ▸ h2)

theorem div_pos_ends {M X Z : Iv K} (hM : Ordinary M) (hX : Ordinary X) (h : 0 < M.a)
    (hZ : X.div Rnd.exact M = .ok Z) : (∃ s ∈ M, Z.a = X.a / s) ∧ ∃ s ∈ M, Z.b = X.b / s := by
  obtain ⟨hin, ⟨t, ht, s, hs, e1⟩, ⟨t', ht', s', hs', e2⟩⟩ := C11_div_range X M Z hX hM hZ
  have hpos : ∀ s, s ∈ M → 0 < s := fun s hs => lt_of_lt_of_le h hs.1
  refine ⟨⟨s, hs, ?_⟩, ⟨s', hs', ?_⟩⟩
  · have h1 : Z.a ≤ X.a / s := (hin _ ⟨X.a, ⟨le_refl _, hX.2⟩, s, hs, rfl⟩).1
    have h2 : X.a / s ≤ t / s := div_le_div_of_nonneg_right ht.1 (hpos s hs).le
    exact le_antisymm h1 (e1 ▸ h2)
  · have h1 : X.b / s' ≤ Z.b := (hin _ ⟨X.b, ⟨hX.2, le_refl _⟩, s', hs', rfl⟩).2
    have h2 : t' / s' ≤ X.b / s' := div_le_div_of_nonneg_right ht'.2 (hpos s' hs').le
    exact le_antisymm (e2 ▸ h2) h1

theorem sum_offSum {n : ℕ} (f : Fin n → K) (k : Fin n) : ∑ j, f j = f k + offSum f k := by
  rw [sum_split _ k, ← offSum_split]
  ring

theorem offSum_le {n : ℕ} {f g : Fin n → K} {k : Fin n} (h : ∀ j, j ≠ k → f j ≤ g j) : offSum f k ≤ offSum g k := by
  unfold offSum
  refine Finset.sum_le_sum fun j _ => ?_
  split_ifs with c
  · exact le_refl _
  · exact h j c

theorem offSum_congr {n : ℕ} {f g : Fin n → K} {k : Fin n} (h : ∀ j, j ≠ k → f j = g j) : offSum f k = offSum g k :=
  le_antisymm (offSum_le fun j hj => (h j hj).le) (offSum_le fun j hj => (h j hj).ge)

theorem offSum_neg {n : ℕ} (f : Fin n → K) (k : Fin n) : offSum (fun j => -f j) k = -offSum f k := by
  unfold offSum
  rw [← Finset.sum_neg_distrib]
  exact Finset.sum_congr rfl fun j _ => by split_ifs <;> simp

theorem offSum_sub {n : ℕ} (f g : Fin n → K) (k : Fin n) :
    offSum (fun j => f j - g j) k = offSum f k - offSum g k := by
  unfold offSum
  rw [← Finset.sum_sub_distrib]
  exact Finset.sum_congr rfl fun j _ => by split_ifs <;> simp

/-- The ends of `new_bar` of one box, for a matrix of the M-matrix sign pattern: the lower end comes from the lower ends, the
upper one from the upper ends. -/
theorem gsBar_corner {n : ℕ} (A : Fin n → Fin n → Iv K) (hA : ∀ i j, Ordinary (A i j)) (b X : Fin n → Iv K)
    (hb : ∀ i, Ordinary (b i)) (hX : ∀ i, Ordinary (X i)) (k : Fin n) (hneg : ∀ j, j ≠ k → (A k j).b ≤ 0)
    (hpos : 0 < (A k k).a) (W : Iv K) (hW : gsBar Rnd.exact A b X X k = .ok W) :
    (∃ α : Fin n → K, (∀ j, α j ∈ A k j) ∧ W.a = ((b k).a - offSum (fun j => α j * (X j).a) k) / α k) ∧
    ∃ α : Fin n → K, (∀ j, α j ∈ A k j) ∧ W.b = ((b k).b - offSum (fun j => α j * (X j).b) k) / α k := by
  have hc : ∀ j, ((A k j).mul Rnd.exact (X j)).cls = .classical := fun j =>
    (C02_mul_ordinary _ _ _ (hA k j) (hX j)).1
  have o2 := subSum_ordinary _ (subSum_ordinary (b k) (hb k) ((List.finRange n).filter fun j => j < k)
      (fun j => (A k j).mul Rnd.exact (X j)) (fun j _ => C02_mul_ordinary _ _ _ (hA k j) (hX j)))
    ((List.finRange n).filter fun j => k < j) (fun j => (A k j).mul Rnd.exact (X j))
    (fun j _ => C02_mul_ordinary _ _ _ (hA k j) (hX j))
  have q1 := subSum_exact (b k) (hb k).1 ((List.finRange n).filter fun j => j < k)
    (fun j => (A k j).mul Rnd.exact (X j)) (fun j _ => hc j)
  unfold gsBar at hW
  obtain ⟨⟨s, hs, e1⟩, ⟨s', hs', e2⟩⟩ := div_pos_ends (hA k k) o2 hpos hW
  rw [q1, subSum_exact _ rfl _ _ (fun j _ => hc j)] at e1 e2
  dsimp only at e1 e2
  rw [sub_sub, offSum_split] at e1 e2
  constructor
  · have : ∀ j, ∃ α ∈ A k j, j ≠ k → ((A k j).mul Rnd.exact (X j)).b = α * (X j).a := fun j => by
      by_cases c : j = k
      · exact ⟨(A k j).a, ⟨le_refl _, (hA k j).2⟩, fun h => absurd c h⟩
      · obtain ⟨α, h1, h2⟩ := (mul_nonpos_ends (hA k j) (hX j) (hneg j c)).1
        exact ⟨α, h1, fun _ => h2⟩
    choose α hα1 hα2 using this
    refine ⟨Function.update α k s, fun j => ?_, ?_⟩
    · by_cases c : j = k
      · subst c; rwa [Function.update_self]
      · rw [Function.update_of_ne c]; exact hα1 j
    · rw [Function.update_self, e1]
      congr 2
      exact offSum_congr fun j hj => by rw [Function.update_of_ne hj, hα2 j hj]
  · have : ∀ j, ∃ α ∈ A k j, j ≠ k → ((A k j).mul Rnd.exact (X j)).a = α * (X j).b := fun j => by
      by_cases c : j = k
      · exact ⟨(A k j).a, ⟨le_refl _, (hA k j).2⟩, fun h => absurd c h⟩
      · obtain ⟨α, h1, h2⟩ := (mul_nonpos_ends (hA k j) (hX j) (hneg j c)).2
        exact ⟨α, h1, fun _ => h2⟩
    choose α hα1 hα2 using this
    refine ⟨Function.update α k s', fun j => ?_, ?_⟩
    · by_cases c : j = k
      · subst c; rwa [Function.update_self]
      · rw [Function.update_of_ne c]; exact hα1 j
    · rw [Function.update_self, e2]
      congr 2
      exact offSum_congr fun j hj => by rw [Function.update_of_ne hj, hα2 j hj]

/-- A dominant matrix of numbers is invertible. -/
theorem dominant_solve {n : ℕ} (α : Fin n → Fin n → K) (v : Fin n → K) (hv : ∀ i, 0 < v i) (κ : K) (hκ1 : κ < 1)
    (hd : ∀ k, 0 < α k k) (hκ : ∀ k, offSum (fun j => |α k j| * v j) k ≤ κ * (α k k * v k)) (c : Fin n → K) :
    ∃ x, ∀ k, apply α x k = c k := by
  have hinj : ∀ z : Fin n → K, (∀ k, apply α z k = 0) → z = 0 := by
    intro z hz
    funext i
    obtain ⟨k, _, hk⟩ := Finset.exists_max_image (Finset.univ : Finset (Fin n)) (fun j => |z j| / v j)
      ⟨i, Finset.mem_univ _⟩
    set E := |z k| / v k with hE
    have hE0 : 0 ≤ E := div_nonneg (abs_nonneg _) (hv k).le
    have hzE : ∀ j, |z j| ≤ v j * E := fun j => by
      have := hk j (Finset.mem_univ _)
      rwa [div_le_iff₀ (hv j), mul_comm] at this
    have h1 := hz k
    unfold apply at h1
    rw [sum_offSum _ k] at h1
    have h2 : |α k k * z k| ≤ offSum (fun j => |α k j| * v j * E) k := by
      have e : α k k * z k = -offSum (fun j => α k j * z j) k := by linarith
      rw [e, abs_neg]
      refine (Finset.abs_sum_le_sum_abs _ _).trans (Finset.sum_le_sum fun j _ => ?_)
      split_ifs
      · simp
      · show |α k j * z j| ≤ |α k j| * v j * E
        rw [abs_mul, mul_assoc]
        exact mul_le_mul_of_nonneg_left (hzE j) (abs_nonneg _)
    rw [offSum_mul, abs_mul, abs_of_pos (hd k)] at h2
    have h3 := mul_le_mul_of_nonneg_right (hκ k) hE0
    have h4 : |z k| = v k * E := by rw [hE]; field_simp [(hv k).ne']
    rw [h4] at h2
    have hp : 0 < α k k * v k := mul_pos (hd k) (hv k)
    have hEz : E = 0 := by
      by_contra hne
      have hEp : 0 < E := lt_of_le_of_ne hE0 (Ne.symm hne)
      have : α k k * v k * E ≤ κ * (α k k * v k * E) := by
        calc α k k * v k * E = α k k * (v k * E) := by ring
          _ ≤ _ := h2.trans h3
          _ = _ := by ring
      nlinarith [mul_pos hp hEp]
    have := hzE i
    rw [hEz, mul_zero] at this
    exact abs_eq_zero.mp (le_antisymm this (abs_nonneg _))
  let f : (Fin n → K) →ₗ[K] (Fin n → K) := Matrix.toLin' (Matrix.of α)
  have hf : ∀ x k, f x k = apply α x k := fun x k => by
    simp [f, Matrix.toLin'_apply, Matrix.mulVec, dotProduct, apply]
  have hi : Function.Injective f := by
    rw [injective_iff_map_eq_zero]
    intro z hz
    exact hinj z fun k => by rw [← hf, hz]; rfl
  obtain ⟨x, hx⟩ := (LinearMap.injective_iff_surjective.mp hi) c
  exact ⟨x, fun k => by rw [← hf, hx]⟩

/-- A vector that is nearly not less than the next iterate lies nearly above the solution. -/
theorem corner_core {n : ℕ} (α : Fin n → Fin n → K) (v : Fin n → K) (hv : ∀ i, 0 < v i) (κ : K) (hκ0 : 0 ≤ κ)
    (hκ1 : κ < 1) (hd : ∀ k, 0 < α k k) (hneg : ∀ k j, j ≠ k → α k j ≤ 0)
    (hκ : ∀ k, offSum (fun j => |α k j| * v j) k ≤ κ * (α k k * v k)) (c y : Fin n → K) (τ : K) (hτ : 0 ≤ τ)
    (hy : ∀ k, (c k - offSum (fun j => α k j * y j) k) / α k k - v k * (κ * τ) ≤ y k) :
    ∃ x, (∀ k, apply α x k = c k) ∧ ∀ k, x k ≤ y k + v k * (κ * τ / (1 - κ)) := by
  obtain ⟨x, hx⟩ := dominant_solve α v hv κ hκ1 hd hκ c
  refine ⟨x, hx, fun i => ?_⟩
  obtain ⟨k, _, hk⟩ := Finset.exists_max_image (Finset.univ : Finset (Fin n)) (fun j => max 0 ((x j - y j) / v j))
    ⟨i, Finset.mem_univ _⟩
  set E := max 0 ((x k - y k) / v k) with hE
  have hE0 : 0 ≤ E := le_max_left _ _
  have hxE : ∀ j, x j - y j ≤ v j * E := fun j => by
    have := (le_max_right _ _).trans (hk j (Finset.mem_univ _))
    rwa [div_le_iff₀ (hv j), mul_comm] at this
  have h1 := hx k
  unfold apply at h1
  rw [sum_offSum _ k] at h1
  have h2 : offSum (fun j => α k j * y j - α k j * x j) k ≤ offSum (fun j => |α k j| * v j * E) k :=
    offSum_le fun j hj => by
      rw [abs_of_nonpos (hneg k j hj)]
      have := mul_le_mul_of_nonneg_left (hxE j) (neg_nonneg.mpr (hneg k j hj))
      linarith
  rw [offSum_sub, offSum_mul] at h2
  have h3 := mul_le_mul_of_nonneg_right (hκ k) hE0
  have h4 : x k ≤ (c k - offSum (fun j => α k j * y j) k) / α k k + v k * (κ * E) := by
    have e : v k * (κ * E) = (κ * (α k k * v k) * E) / α k k := by field_simp [(hd k).ne']
    rw [e, ← add_div, le_div_iff₀ (hd k)]
    linarith [mul_comm (x k) (α k k)]
  have hEle : E ≤ κ * (E + τ) := by
    rw [hE]
    refine max_le (mul_nonneg hκ0 (by linarith)) ?_
    rw [div_le_iff₀ (hv k)]
    linarith [hy k, show κ * (E + τ) * v k = v k * (κ * E) + v k * (κ * τ) by ring]
  have hfin : E ≤ κ * τ / (1 - κ) := by
    rw [le_div_iff₀ (by linarith)]
    nlinarith
  have := mul_le_mul_of_nonneg_left hfin (hv i).le
  linarith [hxE i]

theorem mig_pos_eq {X : Iv K} (hX : Ordinary X) (h : 0 < X.a) : X.mig = X.a := by
  have h1 := ((C20_characteristics X hX).1 X.a ⟨le_refl _, hX.2⟩).1
  rw [abs_of_pos h] at h1
  obtain ⟨t, ht, e⟩ : ∃ t ∈ X, |t| = X.mig := (C20_characteristics X hX).2.1
  refine le_antisymm h1 ?_
  rw [← e]
  exact le_trans ht.1 (le_abs_self t)

/-- A pass that changed the box by less than `tol`: the corners of the box are near solutions. -/
theorem gs_corners {n : ℕ} {A : Fin n → Fin n → Iv K} {b Q X : Fin n → Iv K} {x : Fin n → K}
    (hA : ∀ i j, Ordinary (A i j)) (hb : ∀ i, Ordinary (b i)) (hx : United A b x)
    (hneg : ∀ k j, j ≠ k → (A k j).b ≤ 0) (hpos : ∀ k, 0 < (A k k).a)
    (κ : K) (hκ0 : 0 ≤ κ) (hκ1 : κ < 1) (v : Fin n → K) (hv : ∀ i, 0 < v i)
    (hκ : ∀ k, offSum (fun j => -(A k j).a * v j) k ≤ κ * ((A k k).a * v k))
    (S : GSState A b Q X x) (tol τ : K) (hτ0 : 0 ≤ τ) (hτ : ∀ i, tol ≤ v i * τ)
    (ht : ∀ i, cheb (X i) (Q i) < tol) :
    (∃ y, United A b y ∧ ∀ i, y i ≤ (X i).a + v i * (κ * τ / (1 - κ))) ∧
    ∃ y, United A b y ∧ ∀ i, (X i).b - v i * (κ * τ / (1 - κ)) ≤ y i := by
  have hm : ∀ k, 0 < (A k k).mig := fun k => by rw [mig_pos_eq (hA k k) (hpos k)]; exact hpos k
  have hmag : ∀ k j, j ≠ k → (A k j).mag = -(A k j).a := fun k j hj => by
    refine le_antisymm ?_ ?_
    · rw [mag_le_iff (hA k j)]
      exact ⟨by simp, (hneg k j hj).trans (by linarith [(hA k j).2, hneg k j hj])⟩
    · exact (neg_le_abs _).trans ((C20_characteristics _ (hA k j)).1 _ ⟨le_refl _, (hA k j).2⟩).2
  have hbars : ∀ k, ∃ W, gsBar Rnd.exact A b X X k = .ok W := fun k => by
    have h0 : ¬ (0 : K) ∈ A k k := fun h0 => absurd h0.1 (not_le.mpr (hpos k))
    have o2 := subSum_ordinary _ (subSum_ordinary (b k) (hb k) ((List.finRange n).filter fun j => j < k)
        (fun j => (A k j).mul Rnd.exact (X j)) (fun j _ => C02_mul_ordinary _ _ _ (hA k j) (S.ordX j)))
      ((List.finRange n).filter fun j => k < j) (fun j => (A k j).mul Rnd.exact (X j))
      (fun j _ => C02_mul_ordinary _ _ _ (hA k j) (S.ordX j))
    obtain ⟨Z, hZ, _⟩ := ((C03_div_error_iff Rnd.exact _ _ o2 (hA k k)).2).mpr h0
    exact ⟨Z, hZ⟩
  choose W hW using hbars
  have hexc : ∀ k, (W k).a - v k * (κ * τ) ≤ (X k).a ∧ (X k).b ≤ (W k).b + v k * (κ * τ) := by
    intro k
    obtain ⟨bar, e1, o1, a1, b1⟩ := S.ends hA hb hx k
    have h := gsBar_exc A hA b b hb hb X X Q X k (fun j _ => ⟨S.ordX j, S.ordX j⟩) (fun j => ⟨S.ordP j, S.ordX j⟩)
      (hm k) 0 (le_refl _) ⟨by simp, by simp⟩ (fun j => v j * τ) (fun j => mul_nonneg (hv j).le hτ0)
      (fun j _ => ⟨by linarith [mul_nonneg (hv j).le hτ0], by linarith [mul_nonneg (hv j).le hτ0]⟩)
      (fun j _ => by
        have h := ht j
        unfold cheb at h
        have g1 := (le_max_left _ _).trans h.le
        have g2 := (le_max_right _ _).trans h.le
        rw [abs_le] at g1 g2
        have := hτ j
        exact ⟨by linarith [g1.2], by linarith [g2.1]⟩) bar (W k) e1 (hW k)
    have hle : (0 + offSum (fun j => (A k j).mag * (v j * τ)) k) / (A k k).mig ≤ v k * (κ * τ) := by
      have e : offSum (fun j => (A k j).mag * (v j * τ)) k = offSum (fun j => -(A k j).a * v j * τ) k :=
        offSum_congr fun j hj => by rw [hmag k j hj]; ring
      rw [e, offSum_mul, zero_add, div_le_iff₀ (hm k), mig_pos_eq (hA k k) (hpos k)]
      have := mul_le_mul_of_nonneg_right (hκ k) hτ0
      linarith [show κ * ((A k k).a * v k) * τ = v k * (κ * τ) * (A k k).a by ring]
    obtain ⟨x1, x2⟩ := exc_mono h hle
    exact ⟨by linarith [a1 ▸ le_max_right (Q k).a bar.a], by linarith [b1 ▸ min_le_right (Q k).b bar.b]⟩
  have hcorner := fun k => gsBar_corner A hA b X hb S.ordX k (hneg k) (hpos k) (W k) (hW k)
  have hdom : ∀ α : Fin n → Fin n → K, (∀ k j, α k j ∈ A k j) → ∀ k,
      offSum (fun j => |α k j| * v j) k ≤ κ * (α k k * v k) := by
    intro α hα k
    refine (offSum_le (g := fun j => -(A k j).a * v j) fun j hj => ?_).trans ((hκ k).trans ?_)
    · refine mul_le_mul_of_nonneg_right ?_ (hv j).le
      rw [abs_of_nonpos (le_trans (hα k j).2 (hneg k j hj))]
      exact neg_le_neg (hα k j).1
    · exact mul_le_mul_of_nonneg_left (mul_le_mul_of_nonneg_right (hα k k).1 (hv k).le) hκ0
  constructor
  · choose α hα hWa using fun k => (hcorner k).1
    obtain ⟨y, hy1, hy2⟩ := corner_core α v hv κ hκ0 hκ1 (fun k => lt_of_lt_of_le (hpos k) (hα k k).1)
      (fun k j hj => le_trans (hα k j).2 (hneg k j hj)) (hdom α hα) (fun k => (b k).a) (fun k => (X k).a) τ hτ0
      (fun k => by rw [← hWa k]; exact (hexc k).1)
    exact ⟨y, ⟨α, hα, fun k => (b k).a, fun k => ⟨le_refl _, (hb k).2⟩, hy1⟩, hy2⟩
  · choose α hα hWb using fun k => (hcorner k).2
    obtain ⟨y, hy1, hy2⟩ := corner_core α v hv κ hκ0 hκ1 (fun k => lt_of_lt_of_le (hpos k) (hα k k).1)
      (fun k j hj => le_trans (hα k j).2 (hneg k j hj)) (hdom α hα) (fun k => -(b k).b) (fun k => -(X k).b) τ hτ0
      (fun k => by
        have e : -(b k).b - offSum (fun j => α k j * -(X j).b) k
            = -((b k).b - offSum (fun j => α k j * (X j).b) k) := by
          have : (fun j => α k j * -(X j).b) = fun j => -(α k j * (X j).b) := by funext j; ring
          rw [this, offSum_neg]; ring
        rw [e, neg_div, ← hWb k]
        linarith [(hexc k).2])
    refine ⟨fun i => -y i, ⟨α, hα, fun k => (b k).b, fun k => ⟨(hb k).2, le_refl _⟩, fun k => ?_⟩, fun i => ?_⟩
    · have := hy1 k
      unfold apply at this ⊢
      simp only [mul_neg, Finset.sum_neg_distrib]
      linarith
    · linarith [hy2 i]

/-! ## The unit matrix as preconditioner -/

theorem dotNI_eq (R : Rnd K) (c : List K) (l : List (Iv K)) : dotNI R c l = dotIN R l c := by
  unfold dotNI dotIN
  cases c with
  | nil => cases l <;> rfl
  | cons x xs =>
    cases l with
    | nil => rfl
    | cons y ys =>
      simp only [objDot]
      rw [List.zipWith_comm]
      rfl

theorem dotNI_unit {n : ℕ} (i : Fin n) (X : Fin n → Iv K) (hX : ∀ j, Ordinary (X j)) :
    dotNI Rnd.exact (List.ofFn fun j => if i = j then (1 : K) else 0) (List.ofFn X) = some (X i) := by
  obtain ⟨Z, h1, h2, h3, h4⟩ := dotIN_exact X (fun j => if i = j then (1 : K) else 0) (Fin.pos i) hX
  rw [dotNI_eq, h1]
  have hr : ∀ j, Iv.rmul Rnd.exact (if i = j then (1 : K) else 0) (X j)
      = ⟨.classical, if i = j then (X j).a else 0, if i = j then (X j).b else 0⟩ := by
    intro j
    simp only [Iv.rmul, (hX j).1, Rnd.exact_dn, Rnd.exact_up, id]
    split_ifs
    · rw [one_mul, one_mul, min_eq_left (hX j).2, max_eq_right (hX j).2]
    · simp
  simp only [hr] at h3 h4
  rw [Finset.sum_ite_eq, if_pos (Finset.mem_univ _)] at h3 h4
  have c1 := h2.1
  have c2 := (hX i).1
  generalize X i = Y at *
  obtain ⟨cz, az, bz⟩ := Z
  obtain ⟨cy, ay, yb⟩ := Y
  simp only at h3 h4 c1 c2
  rw [h3, h4, c1, c2]

/-- The unit matrix, as a preconditioner. -/
def unitPrecond (n : ℕ) : Precond K n := .point fun i j => if i = j then 1 else 0

theorem unit_mulMat {n : ℕ} (A : Fin n → Fin n → Iv K) (hA : ∀ i j, Ordinary (A i j)) :
    (unitPrecond n : Precond K n).mulMat Rnd.exact A = A := by
  funext i l
  simp only [unitPrecond, Precond.mulMat]
  rw [dotNI_unit i (fun j => A j l) (fun j => hA j l)]
  rfl

theorem unit_mulVec {n : ℕ} (b : Fin n → Iv K) (hb : ∀ i, Ordinary (b i)) :
    (unitPrecond n : Precond K n).mulVec Rnd.exact b = b := by
  funext i
  simp only [unitPrecond, Precond.mulVec]
  rw [dotNI_unit i b hb]
  rfl

/-! ## C130 -/

variable {n : ℕ} (inv : (Fin n → Fin n → K) → Except Err (Fin n → Fin n → K))
  (A : Fin n → Fin n → Iv K) (b : Fin n → Iv K)

/-- C130: if the preconditioned matrix is an interval M-matrix (entries `≤ 0` beside a positive diagonal that dominates them
with the ratio `κ < 1` in some units `v`), then the lower ends of the returned box are, up to `v_i κ τ / (1 - κ)`, the
coordinates of one solution of the preconditioned system, and so are the upper ends. -/
theorem C130_gauss_seidel_corners (x0 : Option (Fin n → Iv K)) (C : Option (Precond K n)) (D : Precond K n)
    (hD : gsPrecond Rnd.exact inv A C = .ok D) (hDo : ∀ E, D = .iv E → ∀ i j, Ordinary (E i j))
    (hA : ∀ i j, Ordinary (A i j)) (hb : ∀ i, Ordinary (b i)) (start : Fin n → Iv K)
    (hst : start = match x0 with | none => fun _ => ⟨.classical, -1000, 1000⟩ | some X => X)
    (hso : ∀ i, Ordinary (start i)) (x : Fin n → K) (hx : United A b x) (hxs : InVec x start)
    (M : Fin n → Fin n → Iv K) (hM : M = D.mulMat Rnd.exact A)
    (hneg : ∀ k j, j ≠ k → (M k j).b ≤ 0) (hpos : ∀ k, 0 < (M k k).a)
    (κ : K) (hκ0 : 0 ≤ κ) (hκ1 : κ < 1) (v : Fin n → K) (hv : ∀ i, 0 < v i)
    (hκ : ∀ k, (∑ j, if j = k then 0 else -(M k j).a * v j) ≤ κ * ((M k k).a * v k))
    (W : K) (hW : ∀ i, (start i).b - (start i).a ≤ v i * W) (tol : K) (N : ℕ)
    (ht : ∀ i, v i * (κ ^ N * W) < tol) (maxiter : ℕ) (hN : N ≤ maxiter) (τ : K) (hτ : ∀ i, tol ≤ v i * τ)
    (X : Fin n → Iv K) (hX : gaussSeidel Rnd.exact inv A b x0 C tol maxiter = .ok X) :
    (∃ y, United M (D.mulVec Rnd.exact b) y ∧ ∀ i, y i ≤ (X i).a + v i * (κ * τ / (1 - κ))) ∧
    ∃ y, United M (D.mulVec Rnd.exact b) y ∧ ∀ i, (X i).b - v i * (κ * τ / (1 - κ)) ≤ y i := by
  subst hM
  obtain ⟨hx', hA', hb'⟩ := precond_solution Rnd.exact D A b hDo hA hb x hx
  have hm : ∀ k, 0 < (D.mulMat Rnd.exact A k k).mig := fun k => by
    rw [mig_pos_eq (hA' k k) (hpos k)]; exact hpos k
  have hκ' : ∀ k, (∑ j, if j = k then 0 else (D.mulMat Rnd.exact A k j).mag * v j)
      ≤ κ * ((D.mulMat Rnd.exact A k k).mig * v k) := fun k => by
    rw [mig_pos_eq (hA' k k) (hpos k)]
    refine le_trans (le_of_eq (Finset.sum_congr rfl fun j _ => ?_)) (hκ k)
    split_ifs with c
    · rfl
    · congr 1
      refine le_antisymm ?_ ?_
      · rw [mag_le_iff (hA' k j)]
        exact ⟨by simp, (hneg k j c).trans (by linarith [(hA' k j).2, hneg k j c])⟩
      · exact (neg_le_abs _).trans ((C20_characteristics _ (hA' k j)).1 _ ⟨le_refl _, (hA' k j).2⟩).2
  obtain ⟨r1, r2⟩ := gaussSeidel_run inv A b x0 C D hD hDo hA hb start (by rw [hst]; cases x0 <;> rfl) hso x hx
    hxs κ hκ0 hκ1.le hm v hv hκ' W hW tol N ht maxiter hN
  obtain ⟨Q, S, hQ⟩ := r2 X (r1 ▸ hX)
  by_cases hτ0 : 0 ≤ τ
  · exact gs_corners hA' hb' hx' hneg hpos κ hκ0 hκ1 v hv hκ S tol τ hτ0 hτ hQ
  · have hn : IsEmpty (Fin n) := ⟨fun i => by
      have h1 := hQ i
      have h2 := hτ i
      have h3 := mul_neg_of_pos_of_neg (hv i) (not_le.mp hτ0)
      unfold cheb at h1
      have h4 := ((abs_nonneg _).trans (le_max_left _ _)).trans h1.le
      linarith⟩
    exact ⟨⟨x, hx', fun i => (hn.false i).elim⟩, ⟨x, hx', fun i => (hn.false i).elim⟩⟩

/-- C130: with the unit matrix as preconditioner the returned box is, up to the tolerance, inside every box that contains all
solutions of all the systems: nothing narrower than the returned box (less the tolerance) would be right. -/
theorem C130_gauss_seidel_optimal (x0 : Option (Fin n → Iv K))
    (hA : ∀ i j, Ordinary (A i j)) (hb : ∀ i, Ordinary (b i)) (start : Fin n → Iv K)
    (hst : start = match x0 with | none => fun _ => ⟨.classical, -1000, 1000⟩ | some X => X)
    (hso : ∀ i, Ordinary (start i)) (x : Fin n → K) (hx : United A b x) (hxs : InVec x start)
    (hneg : ∀ k j, j ≠ k → (A k j).b ≤ 0) (hpos : ∀ k, 0 < (A k k).a)
    (κ : K) (hκ0 : 0 ≤ κ) (hκ1 : κ < 1) (v : Fin n → K) (hv : ∀ i, 0 < v i)
    (hκ : ∀ k, (∑ j, if j = k then 0 else -(A k j).a * v j) ≤ κ * ((A k k).a * v k))
    (W : K) (hW : ∀ i, (start i).b - (start i).a ≤ v i * W) (tol : K) (N : ℕ)
    (ht : ∀ i, v i * (κ ^ N * W) < tol) (maxiter : ℕ) (hN : N ≤ maxiter) (τ : K) (hτ : ∀ i, tol ≤ v i * τ)
    (X : Fin n → Iv K)
    (hX : gaussSeidel Rnd.exact inv A b x0 (some (.point fun i j => if i = j then 1 else 0)) tol maxiter = .ok X)
    (H : Fin n → Iv K) (hH : ∀ y, United A b y → InVec y H) :
    ∀ i, (H i).a - v i * (κ * τ / (1 - κ)) ≤ (X i).a ∧ (X i).b ≤ (H i).b + v i * (κ * τ / (1 - κ)) := by
  obtain ⟨⟨y, hy, hy2⟩, ⟨z, hz, hz2⟩⟩ := C130_gauss_seidel_corners inv A b x0 (some (unitPrecond n)) (unitPrecond n) rfl
    (fun E h => by cases h) hA hb start hst hso x hx hxs A (unit_mulMat A hA).symm hneg hpos κ hκ0 hκ1 v hv hκ W hW tol N
    ht maxiter hN τ hτ X hX
  rw [unit_mulVec b hb] at hy hz
  intro i
  have h1 : (H i).a ≤ y i := (hH y hy i).1
  have h2 : z i ≤ (H i).b := (hH z hz i).2
  exact ⟨by linarith [hy2 i], by linarith [hz2 i]⟩

/-! ### A system to which the theorems apply -/

/-- `[[4, 5], [-1, 0]], [[-1, 0], [3, 4]]`. -/
def gsExM : Fin 2 → Fin 2 → Iv ℚ :=
  ![![⟨.classical, 4, 5⟩, ⟨.classical, -1, 0⟩], ![⟨.classical, -1, 0⟩, ⟨.classical, 3, 4⟩]]

theorem gsExM_ordinary : ∀ i j, Ordinary (gsExM i j) := by
  intro i j
  fin_cases i <;> fin_cases j <;> exact ⟨rfl, by norm_num [gsExM]⟩

theorem gsExM_united : United gsExM gsExb ![1 / 4, 1 / 4] := by
  refine ⟨![![4, 0], ![0, 4]], ?_, ![1, 1], ?_, ?_⟩
  · intro i j
    fin_cases i <;> fin_cases j <;> exact ⟨by norm_num [gsExM], by norm_num [gsExM]⟩
  · intro i
    fin_cases i <;> exact ⟨by norm_num [gsExb], by norm_num [gsExb]⟩
  · intro i
    fin_cases i <;> norm_num [apply, Fin.sum_univ_two]

/-- The ends of the answer are within `1/2000` of those of the smallest box around all solutions. -/
example (X : Fin 2 → Iv ℚ)
    (hX : gaussSeidel Rnd.exact gsExInv gsExM gsExb none (some (.point fun i j => if i = j then 1 else 0)) (1 / 1000)
      (14 : ℕ) = .ok X) (H : Fin 2 → Iv ℚ) (hH : ∀ y, United gsExM gsExb y → InVec y H) (i : Fin 2) :
    (H i).a - 1 / 2000 ≤ (X i).a ∧ (X i).b ≤ (H i).b + 1 / 2000 := by
  have h := C130_gauss_seidel_optimal gsExInv gsExM gsExb none gsExM_ordinary gsEx_ordinary.2 _ rfl
    (fun _ => ⟨rfl, by norm_num⟩) _ gsExM_united
    (fun i => by fin_cases i <;> exact ⟨by norm_num, by norm_num⟩) (by decide +kernel) (by decide +kernel)
    (1 / 3) (by norm_num) (by norm_num) (fun _ => 1) (fun _ => one_pos) (by decide +kernel) 2000
    (fun _ => by norm_num) _ 14 (fun _ => by norm_num) 14 (le_refl _) (1 / 1000) (fun _ => by norm_num) X hX H hH i
  constructor <;> linarith [h.1, h.2]

/-- The run does return a box, and the ends are not those of the start. -/
example : (match gaussSeidel Rnd.exact gsExInv gsExM gsExb none (some (.point fun i j => if i = j then 1 else 0))
      (1 / 1000) 14 with
    | .ok X => decide (1 / 5 ≤ (X 0).a + 1 / 2000 ∧ (X 1).b ≤ 10 / 11 + 1 / 2000 ∧ 10 / 11 ≤ (X 1).b)
    | .error _ => false) = true := by
  decide +kernel

end IntvalPy
