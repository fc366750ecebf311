import Verif.PropsRalgbConv
import Verif.PropsRohnFull

/-!
# C111, the accuracy of the returned value for every exit of `ralgb5` in one variable
-/

set_option autoImplicit false
set_option linter.unusedSectionVars false

namespace IntvalPy
open Spec

variable {K : Type*} [Field K] [LinearOrder K] [IsStrictOrderedRing K]

/-- The search leaves the history and the counter alone, and keeps the best value below the value at the current
point. -/
theorem lineSearch_keeps {n : ℕ} (P : RalgPar K n) (calcfg : (Fin n → K) → K × (Fin n → K)) (dx : Fin n → K) (nd : K)
    (fuel cal : ℕ) (deltax : K) (g1 : Fin n → K) (d : K) (s : RalgSt K n) :
    match lineSearch P calcfg dx nd fuel cal deltax g1 d s with
    | .ret _ => True
    | .done s' _ _ _ => s'.vf = s.vf ∧ s'.nit = s.nit ∧ (s.fr ≤ (calcfg s.x).1 → s'.fr ≤ (calcfg s'.x).1) ∧
        s'.fr ≤ s.fr ∧ ∀ lo, (∀ x, lo ≤ (calcfg x).1) → lo ≤ s.fr → lo ≤ s'.fr := by
  induction fuel generalizing cal deltax g1 d s with
  | zero => exact ⟨rfl, rfl, id, le_refl _, fun _ _ h => h⟩
  | succ k ih =>
    rw [lineSearch]
    by_cases hd : 0 < d
    swap
    · rw [if_neg hd]; exact ⟨rfl, rfl, id, le_refl _, fun _ _ h => h⟩
    rw [if_pos hd]
    simp only
    set x : Fin n → K := fun i => s.x i - s.hs * dx i
    set s2 : RalgSt K n := if (calcfg x).1 < s.fr then { s with x := x, ncalls := s.ncalls + 1, evals := s.evals ++ [x], fr := (calcfg x).1, xr := x } else { s with x := x, ncalls := s.ncalls + 1, evals := s.evals ++ [x] } with hs2
    have e2 : s2.vf = s.vf ∧ s2.nit = s.nit ∧ s2.fr ≤ (calcfg s2.x).1 ∧ s2.fr ≤ s.fr ∧
        ∀ lo, (∀ x, lo ≤ (calcfg x).1) → lo ≤ s.fr → lo ≤ s2.fr := by
      rw [hs2]
      split_ifs with h
      · exact ⟨rfl, rfl, le_refl _, h.le, fun lo hl _ => hl x⟩
      · exact ⟨rfl, rfl, not_lt.1 h, le_refl _, fun _ _ h => h⟩
    split_ifs with h1 h2
    · trivial
    · have := ih (cal + 1) (deltax + s.hs * nd) (calcfg x).2 (dotF dx (calcfg x).2) { s2 with hs := s2.hs * P.q2 }
      revert this
      generalize lineSearch P calcfg dx nd k (cal + 1) (deltax + s.hs * nd) (calcfg x).2 (dotF dx (calcfg x).2) { s2 with hs := s2.hs * P.q2 } = L
      cases L with
      | ret o => intro _; trivial
      | done s' g d c => exact fun h => ⟨h.1.trans e2.1, h.2.1.trans e2.2.1, fun _ => h.2.2.1 e2.2.2.1, h.2.2.2.1.trans e2.2.2.2.1,
          fun lo hl h0 => h.2.2.2.2 lo hl (e2.2.2.2.2 lo hl h0)⟩
    · have := ih (cal + 1) (deltax + s.hs * nd) (calcfg x).2 (dotF dx (calcfg x).2) s2
      revert this
      generalize lineSearch P calcfg dx nd k (cal + 1) (deltax + s.hs * nd) (calcfg x).2 (dotF dx (calcfg x).2) s2 = L
      cases L with
      | ret o => intro _; trivial
      | done s' g d c => exact fun h => ⟨h.1.trans e2.1, h.2.1.trans e2.2.1, fun _ => h.2.2.1 e2.2.2.1, h.2.2.2.1.trans e2.2.2.2.1,
          fun lo hl h0 => h.2.2.2.2 lo hl (e2.2.2.2.2 lo hl h0)⟩

/-- One pass of the main loop in one variable, for a state near the minimum. -/
theorem near_pass {P : RalgPar K 1} (hE : Euclidean P) (hP : Positive P) (hS : Shrinking P)
    (calcfg : (Fin 1 → K) → K × (Fin 1 → K)) (z : K) (hz : ∀ x, 0 ≤ (x 0 - z) * (calcfg x).2 0)
    (r e : K) (s : RalgSt K 1) (hN : Near P calcfg z r e s) (vf0 : List K) :
    match lineSearch P calcfg (matVecF s.B (P.normalize (matTVec s.B s.g0)))
      (P.norm (matVecF s.B (P.normalize (matTVec s.B s.g0)))) 501 0 0 (matTVec s.B s.g0) 1 { s with vf := vf0 } with
    | .ret o => o.ccode = 2
    | .done s1 g1 _ cal => cal ≤ 500 ∧ ∃ e', 0 ≤ e' ∧ e' ≤ e ∧ |s1.x 0 - z| ≤ e' ∧
        ∀ hs' vf, hs' = (if cal = 1 then s1.hs * P.q1 else s1.hs) → Near P calcfg z e' (rate P * e') { s1 with
            hs := hs'
            B := fun i j => s1.B i j + (1 / P.alpha - 1) *
              (matVecF s1.B (P.normalize (matTVec s1.B fun i => g1 i - s1.g0 i)) i *
                P.normalize (matTVec s1.B fun i => g1 i - s1.g0 i) j)
            g0 := g1
            vf := vf
            nit := s1.nit + 1 } := by
  have hb := hN.b
  have hg0 : s.g0 0 ≠ 0 := by
    intro h
    apply hN.big
    rw [hE.norm_one, h, abs_zero]
    exact hP.tolg
  have hu0 : matTVec s.B s.g0 0 = s.B 0 0 * s.g0 0 := by rw [matTVec, Fin.sum_univ_one]
  have hu : matTVec s.B s.g0 ≠ 0 := fun h => by
    have := congrFun h 0
    rw [hu0] at this
    exact mul_ne_zero hb.ne' hg0 this
  set dx := matVecF s.B (P.normalize (matTVec s.B s.g0)) with hdx
  set σ := P.normalize (matTVec s.B s.g0) 0 with hσ
  have hσ2 : σ * σ = 1 := by
    have := hE.unit_sq hu
    rwa [Fin.sum_univ_one] at this
  have hdx0 : dx 0 = s.B 0 0 * σ := by rw [hdx, matVecF, Fin.sum_univ_one]
  have hσa : |σ| = 1 := by
    have : |σ| * |σ| = 1 * 1 := by rw [abs_mul_abs_self, hσ2, one_mul]
    exact (mul_self_inj (abs_nonneg _) zero_le_one).1 this
  have habs : |dx 0| = s.B 0 0 := by rw [hdx0, abs_mul, abs_of_pos hb, hσa, mul_one]
  have hδ : dx 0 ≠ 0 := by
    intro h
    rw [h, abs_zero] at habs
    exact hb.ne habs
  have hpos : 0 < dx 0 * s.g0 0 := by
    have h1 := hE.unit_dot hu
    rw [Fin.sum_univ_one, hu0] at h1
    have h2 := hE.norm_pos hu
    rw [hdx0]
    have : s.B 0 0 * σ * s.g0 0 = P.norm (matTVec s.B s.g0) := by rw [← h1]; ring
    rw [this]; exact h2
  set r' := (s.x 0 - z) / dx 0 with hr'
  have hpz : s.x 0 - z = r' * dx 0 := by rw [hr']; field_simp
  have hr0 : 0 ≤ r' := by
    have h1 := hz s.x
    rw [← hN.grad, hpz, mul_assoc] at h1
    exact nonneg_of_mul_nonneg_left h1 hpos
  have hrb : r' * s.B 0 0 ≤ r := by
    have h1 := hN.dist
    rw [hpz, abs_mul, habs, abs_of_nonneg hr0] at h1
    exact h1
  have hr5 : r' < 500 * s.hs := by
    by_contra h
    have := mul_le_mul_of_nonneg_right (not_lt.1 h) hb.le
    have h2 := hN.reach
    linarith
  have hnd : P.norm dx = |dx 0| := hE.norm_one dx
  rw [hnd]
  have hline := lineSearch_ends hE hP hS.q2 calcfg z hz dx hδ (s.x 0) s.hs r' hN.hs hr5 hpz s.B s.g0 s.nit 501 0 0
    (matTVec s.B s.g0) 1 { s with vf := vf0 } rfl rfl rfl rfl 0 (le_refl _) (by simp) (by simp)
    (le_refl _) (by simp) (by simp) (fun _ => hr0) (fun h => absurd one_pos h)
  generalize lineSearch P calcfg dx |dx 0| 501 0 0 (matTVec s.B s.g0) 1 { s with vf := vf0 } = L at hline ⊢
  cases L with
  | ret o => exact hline.1
  | done s1 g1 deltax cal =>
    obtain ⟨a1, a0, a2, a3, a4, a5, t, a6, a7, a8, l, tp, l0, b1, b2, b3, b4, b5, b6, b7, b8⟩ := hline
    have hlb : l * s.B 0 0 ≤ e := by
      have h1 := mul_le_mul_of_nonneg_right b5 hb.le
      have h2 : (P.q2 - 1) * (tp * s.B 0 0) ≤ (P.q2 - 1) * r :=
        mul_le_mul_of_nonneg_left ((mul_le_mul_of_nonneg_right b3 hb.le).trans hrb) (by linarith [hS.q2])
      have h3 := hN.next
      linarith
    have hx1 : |s1.x 0 - z| ≤ l * s.B 0 0 := by
      have e1 : s1.x 0 - z = (r' - t) * dx 0 := by rw [a6]; linear_combination hpz
      rw [e1, abs_mul, habs, abs_of_nonpos (by linarith)]
      exact mul_le_mul_of_nonneg_right (by linarith) hb.le
    have hdg : (matTVec s1.B fun i => g1 i - s1.g0 i) ≠ 0 := by
      intro h
      have h1 := congrFun h 0
      rw [matTVec, Fin.sum_univ_one, a1, a0, Pi.zero_apply] at h1
      have h2 : g1 0 = s.g0 0 := by
        have := (mul_eq_zero.1 h1).resolve_left hb.ne'
        linarith
      rw [h2] at a5
      linarith
    have hxi := hE.unit_sq hdg
    rw [Fin.sum_univ_one] at hxi
    have hB' : s1.B 0 0 + (1 / P.alpha - 1) *
        (matVecF s1.B (P.normalize (matTVec s1.B fun i => g1 i - s1.g0 i)) 0 *
          P.normalize (matTVec s1.B fun i => g1 i - s1.g0 i) 0) = s.B 0 0 / P.alpha := by
      rw [matVecF, Fin.sum_univ_one, mul_assoc, hxi, a1]
      ring
    have hnext : ∀ hs' vf, hs' = (if cal = 1 then s1.hs * P.q1 else s1.hs) →
        Near P calcfg z (l * s.B 0 0) (rate P * (l * s.B 0 0)) { s1 with
          hs := hs'
          B := fun i j => s1.B i j + (1 / P.alpha - 1) *
            (matVecF s1.B (P.normalize (matTVec s1.B fun i => g1 i - s1.g0 i)) i *
              P.normalize (matTVec s1.B fun i => g1 i - s1.g0 i) j)
          g0 := g1
          vf := vf
          nit := s1.nit + 1 } :=
      fun hs' vf hh => Near.step hP hS l0 hb b6 b7 b8 hh hB' a3 a4 hx1
    exact ⟨a8, l * s.B 0 0, (mul_pos l0 hb).le, hlb, hx1, hnext⟩

/-- What the end of an iteration makes of the history: the newest difference in front, the oldest entry dropped. -/
theorem history_step (l : List K) (k : ℕ) (hl : l.length = k) (hk : 0 < k) (a f : K) :
    (npRoll (l.set (k - 1) a)).set 0 |f - (npRoll (l.set (k - 1) a)).headD 0| = |f - a| :: l.dropLast := by
  have hne : l.set (k - 1) a ≠ [] := by
    intro h
    have := congrArg List.length h
    rw [List.length_set, hl] at this
    simp at this
    omega
  have hlast : (l.set (k - 1) a).getLast? = some a := by
    rw [List.getLast?_eq_getElem?, List.length_set, hl, List.getElem?_set_self (by omega)]
  have hdrop : (l.set (k - 1) a).dropLast = l.dropLast := by
    rw [List.dropLast_eq_take, List.dropLast_eq_take, List.length_set, hl, List.take_set_of_le (le_refl _)]
  simp only [npRoll, hlast, hdrop, List.set_cons_zero, List.headD_cons]

/-- The history still holds the initial entries at the places not reached yet. -/
structure Fresh (P : RalgPar K 1) (big : K) (s : RalgSt K 1) : Prop where
  len : s.vf.length = P.nsims
  nonneg : ∀ v ∈ s.vf, 0 ≤ v
  old : ∀ j, s.nit ≤ j → j < P.nsims → s.vf[j]? = some big

/-- A nonnegative list is at least as large as each of its members. -/
theorem le_sum_of_mem (l : List K) (h : ∀ v ∈ l, 0 ≤ v) (a : K) (ha : a ∈ l) : a ≤ l.sum :=
  List.single_le_sum h a ha

theorem fresh_step {P : RalgPar K 1} {big : K} {s : RalgSt K 1} (h : Fresh P big s) (hk : 0 < P.nsims) (d : K)
    (hd : 0 ≤ d) :
    (d :: s.vf.dropLast).length = P.nsims ∧ (∀ v ∈ d :: s.vf.dropLast, 0 ≤ v) ∧
    (∀ j, s.nit + 1 ≤ j → j < P.nsims → (d :: s.vf.dropLast)[j]? = some big) := by
  refine ⟨?_, ?_, ?_⟩
  · rw [List.length_cons, List.length_dropLast, h.len]; omega
  · intro v hv
    rcases List.mem_cons.1 hv with rfl | hv
    · exact hd
    · exact h.nonneg v (List.dropLast_subset _ hv)
  · rintro (_ | j) h1 h2
    · omega
    · rw [List.getElem?_cons_succ, List.getElem?_dropLast, h.len, if_pos (by omega)]
      exact h.old j (by omega) (by omega)

/-- Exit 1 in one variable: the method has made at least `nsims - 1` iterations before, each of which shortened the
distance to the minimum by the factor `rate`. -/
theorem ralgLoop_exit1 {P : RalgPar K 1} (hE : Euclidean P) (hP : Positive P) (hS : Shrinking P) (hk : 0 < P.nsims)
    (calcfg : (Fin 1 → K) → K × (Fin 1 → K)) (z : K) (hz : ∀ x, 0 ≤ (x 0 - z) * (calcfg x).2 0) (big lo hi : K)
    (hlo : ∀ x, lo ≤ (calcfg x).1) (hb1 : P.tolf ≤ big) (hb2 : P.tolf * max |lo| |hi| ≤ big) (hb0 : 0 ≤ big) (k : ℕ)
    (r e : K) (s : RalgSt K 1) (hN : Near P calcfg z r e s) (hF : Fresh P big s) (hfr : s.fr ≤ (calcfg s.x).1)
    (hlf : lo ≤ s.fr) (hhf : s.fr ≤ hi) (htf : 0 ≤ P.tolf) (h1 : (ralgLoop P calcfg k s).ccode = 1) :
    P.nsims ≤ (ralgLoop P calcfg k s).nit + 1 ∧ ∃ d, (ralgLoop P calcfg k s).nit = s.nit + d ∧
      ∃ y, (ralgLoop P calcfg k s).fr ≤ (calcfg y).1 ∧ |y 0 - z| ≤ rate P ^ d * e := by
  induction k generalizing r e s with
  | zero => simp [ralgLoop, RalgSt.out] at h1
  | succ k ih =>
    rw [ralgLoop] at h1 ⊢
    simp only at h1 ⊢
    have hp := near_pass hE hP hS calcfg z hz r e s hN (s.vf.set (P.nsims - 1) s.fr)
    have hkp := lineSearch_keeps P calcfg (matVecF s.B (P.normalize (matTVec s.B s.g0)))
      (P.norm (matVecF s.B (P.normalize (matTVec s.B s.g0)))) 501 0 0 (matTVec s.B s.g0) 1
      { s with vf := s.vf.set (P.nsims - 1) s.fr }
    generalize lineSearch P calcfg (matVecF s.B (P.normalize (matTVec s.B s.g0)))
      (P.norm (matVecF s.B (P.normalize (matTVec s.B s.g0)))) 501 0 0 (matTVec s.B s.g0) 1
      { s with vf := s.vf.set (P.nsims - 1) s.fr } = L at hp hkp h1 ⊢
    cases L with
    | ret o =>
      simp only at hp h1
      rw [hp] at h1
      omega
    | done s1 g1 deltax cal =>
      simp only at hp hkp h1 ⊢
      obtain ⟨hc5, e', he0, hee, hx1, hnext⟩ := hp
      obtain ⟨v1, v2, v3, v4, v5⟩ := hkp
      rw [if_neg (by omega : ¬ 500 < cal)] at h1 ⊢
      obtain ⟨t, ht, ht1, ht2, ht3, ht4, ht5, ht6, ht7, ht8⟩ : ∃ t : RalgSt K 1,
          t = (if cal = 1 then { s1 with hs := s1.hs * P.q1 } else s1) ∧
          t.hs = (if cal = 1 then s1.hs * P.q1 else s1.hs) ∧ t.x = s1.x ∧ t.B = s1.B ∧ t.g0 = s1.g0 ∧ t.vf = s1.vf ∧
          t.fr = s1.fr ∧ t.nit = s1.nit ∧ t = { s1 with hs := t.hs } := by
        refine ⟨_, rfl, ?_⟩
        split_ifs <;> exact ⟨rfl, rfl, rfl, rfl, rfl, rfl, rfl, rfl⟩
      rw [← ht] at h1 ⊢
      have hvf : (npRoll t.vf).set 0 |t.fr - (npRoll t.vf).headD 0| = |s1.fr - s.fr| :: s.vf.dropLast := by
        rw [ht5, ht6, v1]
        exact history_step s.vf P.nsims hF.len hk s.fr s1.fr
      simp only [hvf] at h1 ⊢
      obtain ⟨f1, f2, f3⟩ := fresh_step hF hk |s1.fr - s.fr| (abs_nonneg _)
      have w1 : lo ≤ s1.fr := v5 lo hlo hlf
      have w2 : s1.fr ≤ hi := v4.trans hhf
      have w3 : s1.fr ≤ (calcfg s1.x).1 := v3 hfr
      by_cases c3 : deltax < P.tolx
      · rw [if_pos c3] at h1
        simp [RalgSt.out] at h1
      rw [if_neg c3] at h1 ⊢
      rw [ht6] at h1 ⊢
      by_cases cf : (if 1 < |s1.fr| then (|s1.fr - s.fr| :: s.vf.dropLast).sum / |s1.fr|
          else (|s1.fr - s.fr| :: s.vf.dropLast).sum) < P.tolf
      · rw [if_pos cf] at h1 ⊢
        simp only [RalgSt.out, ht6, ht7, ht2]
        refine ⟨?_, 0, ?_, s1.x, w3, by rw [pow_zero, one_mul]; exact hx1.trans hee⟩
        · by_contra hlt
          have hmem : big ∈ |s1.fr - s.fr| :: s.vf.dropLast := by
            refine List.mem_of_getElem? (f3 (s.nit + 1) (le_refl _) ?_)
            have : s1.nit = s.nit := v2
            omega
          have hs := le_sum_of_mem _ f2 big hmem
          have habs : |s1.fr| ≤ max |lo| |hi| := by
            rcases abs_cases s1.fr with ⟨h, _⟩ | ⟨h, _⟩
            · rw [h]; exact (w2.trans (le_abs_self _)).trans (le_max_right _ _)
            · rw [h]; exact ((neg_le_neg w1).trans (neg_le_abs _)).trans (le_max_left _ _)
          split_ifs at cf with cg
          · rw [div_lt_iff₀ (by linarith)] at cf
            have := mul_le_mul_of_nonneg_left habs htf
            linarith
          · linarith
        · rw [v2, add_zero]
      · rw [if_neg cf] at h1 ⊢
        have hst : ∀ a : RalgSt K 1, a = _ → (ralgLoop P calcfg k a).ccode = 1 → _ := fun a ha h => ih e' (rate P * e') a (by rw [ha]; exact hnext t.hs (|s1.fr - s.fr| :: s.vf.dropLast) ht1)
          (by rw [ha]; exact ⟨f1, f2, by intro j h1 h2; exact f3 j (by have : s1.nit = s.nit := v2; dsimp only at h1; omega) h2⟩)
          (by rw [ha]; exact w3) (by rw [ha]; exact w1) (by rw [ha]; exact w2) h
        have := hst _ (by rw [ht8]) h1
        obtain ⟨q1, d, q2, y, q3, q4⟩ := this
        refine ⟨q1, d + 1, ?_, y, q3, q4.trans ?_⟩
        · rw [q2]
          change t.nit + 1 + d = _
          rw [ht7, v2]
          change s.nit + 1 + d = s.nit + (d + 1)
          omega
        · rw [pow_succ, mul_assoc]
          have hr := rate_nonneg hP hS
          exact mul_le_mul_of_nonneg_left (mul_le_mul_of_nonneg_left hee hr) (pow_nonneg hr _)

/-- C111, exit 1: if minimising a convex function of one variable stops because the best value has not changed enough,
at least `nsims - 1` iterations have been made, and the returned value is least up to a subgradient times the starting
distance, reduced by the factor `rate` for every iteration.  (`big` stands for the infinite entries of the history.) -/
theorem C111_exit1 {P : RalgPar K 1} (hE : Euclidean P) (hP : Positive P) (hS : Shrinking P) (hk : 0 < P.nsims)
    (htf : 0 ≤ P.tolf) (big : K) (calcfg : (Fin 1 → K) → K × (Fin 1 → K)) (hf : SubgradOracle calcfg) (x0 z : Fin 1 → K)
    (hmin : ∀ y, (calcfg z).1 ≤ (calcfg y).1) (hb1 : P.tolf ≤ big)
    (hb2 : P.tolf * max |(calcfg z).1| |(calcfg x0).1| ≤ big) (r : K) (hr : |x0 0 - z 0| ≤ r) (hr5 : r < 500 * P.h0)
    (hc : (ralgb5 P big calcfg x0).ccode = 1) :
    P.nsims ≤ (ralgb5 P big calcfg x0).nit + 1 ∧
      ∃ y, |y 0 - z 0| ≤ rate P ^ (ralgb5 P big calcfg x0).nit * (P.h0 + (P.q2 - 1) * r) ∧
        (ralgb5 P big calcfg x0).fr ≤ (calcfg z).1 +
          |(calcfg y).2 0| * (rate P ^ (ralgb5 P big calcfg x0).nit * (P.h0 + (P.q2 - 1) * r)) := by
  have hz : ∀ x, 0 ≤ (x 0 - z 0) * (calcfg x).2 0 := by
    intro x
    have h1 := hf x z
    have h2 := hmin x
    rw [Fin.sum_univ_one] at h1
    linarith
  have hcase : ¬ P.norm (calcfg x0).2 < P.tolg := by
    intro h
    rw [ralgb5] at hc
    simp only [if_pos h] at hc
    simp [RalgSt.out] at hc
  have key := ralgLoop_exit1 hE hP hS hk calcfg (z 0) hz big (calcfg z).1 (calcfg x0).1 hmin hb1 hb2 (htf.trans hb1)
    (P.maxiter + 1) r (P.h0 + (P.q2 - 1) * r)
    ⟨P.h0, fun i j => if i = j then 1 else 0, List.replicate P.nsims big, x0, x0, (calcfg x0).1, (calcfg x0).2, 0, 1,
      [x0]⟩ ⟨hP.h0, by simp, rfl, hcase, hr, by simpa using hr5, by simp⟩
    ⟨by simp, fun v hv => by rw [(List.mem_replicate.1 hv).2]; exact htf.trans hb1, fun j _ hj => by simp [hj]⟩
    (le_refl _) (hmin x0) (le_refl _) htf
  have heq : ralgb5 P big calcfg x0 = ralgLoop P calcfg (P.maxiter + 1)
      ⟨P.h0, fun i j => if i = j then 1 else 0, List.replicate P.nsims big, x0, x0, (calcfg x0).1, (calcfg x0).2, 0, 1,
      [x0]⟩ := by
    rw [ralgb5]; simp only [if_neg hcase]
  rw [heq] at hc ⊢
  obtain ⟨q1, d, q2, y, q3, q4⟩ := key hc
  simp only [zero_add] at q2
  refine ⟨q1, y, by rw [q2]; exact q4, ?_⟩
  have h3 := hf y z
  rw [Fin.sum_univ_one] at h3
  have h4 : -((calcfg y).2 0 * (z 0 - y 0)) ≤ |(calcfg y).2 0| * |y 0 - z 0| := by
    rw [← abs_mul]
    have : -((calcfg y).2 0 * (z 0 - y 0)) = (calcfg y).2 0 * (y 0 - z 0) := by ring
    rw [this]; exact le_abs_self _
  have h5 := mul_le_mul_of_nonneg_left q4 (abs_nonneg ((calcfg y).2 0))
  rw [q2]
  linarith

/-- C111, accuracy with the default parameters: a convex function of one real variable with slopes up to `G` and a minimum
less than 500 away from the start is minimised up to `G / 100000 + 1e-9`, whichever exit is taken. -/
theorem C111_accuracy (big : ℝ) (calcfg : (Fin 1 → ℝ) → ℝ × (Fin 1 → ℝ)) (hf : SubgradOracle calcfg) (x0 z : Fin 1 → ℝ)
    (hmin : ∀ y, (calcfg z).1 ≤ (calcfg y).1) (hr : |x0 0 - z 0| < 500) (G : ℝ) (hG : ∀ y, |(calcfg y).2 0| ≤ G)
    (hb1 : 1 ≤ big) (hb2 : max |(calcfg z).1| |(calcfg x0).1| ≤ big) :
    (ralgb5 (defaultPar 1) big calcfg x0).fr ≤ (calcfg z).1 + G / 100000 + 1 / 10 ^ 9 := by
  have G0 : 0 ≤ G := (abs_nonneg _).trans (hG x0)
  have hC := C111_converges (defaultPar_euclidean 1) (defaultPar_positive 1) defaultPar_convergent big calcfg hf x0 z hmin
    |x0 0 - z 0| (le_refl _) (by simp only [defaultPar]; linarith) 59 (by
      simp only [rate, defaultPar]
      have e1 : (1 : ℝ) + (11 / 10 - 1) * |x0 0 - z 0| ≤ 51 := by linarith
      have e2 : ((11 : ℝ) / 10 / (23 / 10) + (11 / 10 - 1)) = 133 / 230 := by norm_num
      rw [e2]
      have e3 : (133 / 230 : ℝ) ^ 59 * (51 * (1 + 133 / 230)) < 1 / 10 ^ 12 := by norm_num
      have e4 : (133 / 230 : ℝ) ^ 59 * ((1 + (11 / 10 - 1) * |x0 0 - z 0|) * (1 + 133 / 230)) ≤
          (133 / 230 : ℝ) ^ 59 * (51 * (1 + 133 / 230)) :=
        mul_le_mul_of_nonneg_left (mul_le_mul_of_nonneg_right e1 (by norm_num)) (by norm_num)
      linarith) (by simp only [defaultPar]; norm_num)
  obtain ⟨hcode, _, h2, h3⟩ := hC
  rcases hcode with hc | hc | hc
  · obtain ⟨n1, y, _, n3⟩ := C111_exit1 (defaultPar_euclidean 1) (defaultPar_positive 1) defaultPar_convergent.toShrinking
      (by simp only [defaultPar]; norm_num) (by simp only [defaultPar]; norm_num) big calcfg hf x0 z hmin
      (by simp only [defaultPar]; norm_num; linarith) (by
        simp only [defaultPar]
        have : 0 ≤ max |(calcfg z).1| |(calcfg x0).1| := (abs_nonneg _).trans (le_max_left _ _)
        norm_num; linarith) |x0 0 - z 0| (le_refl _) (by simp only [defaultPar]; linarith) hc
    have e2 : rate (defaultPar 1) = 133 / 230 := by simp only [rate, defaultPar]; norm_num
    rw [e2] at n3
    have n1' : 29 ≤ (ralgb5 (defaultPar 1) big calcfg x0).nit := by
      have : (defaultPar 1).nsims = 30 := rfl
      omega
    have p1 : (133 / 230 : ℝ) ^ (ralgb5 (defaultPar 1) big calcfg x0).nit ≤ (133 / 230) ^ 29 :=
      pow_le_pow_of_le_one (by norm_num) (by norm_num) n1'
    have p2 : (133 / 230 : ℝ) ^ 29 * 51 ≤ 1 / 100000 := by norm_num
    have e1 : (defaultPar 1).h0 + ((defaultPar 1).q2 - 1) * |x0 0 - z 0| ≤ 51 := by
      simp only [defaultPar]; linarith
    have e0 : 0 ≤ (defaultPar 1).h0 + ((defaultPar 1).q2 - 1) * |x0 0 - z 0| := by
      simp only [defaultPar]; linarith [abs_nonneg (x0 0 - z 0)]
    have p3 : (133 / 230 : ℝ) ^ (ralgb5 (defaultPar 1) big calcfg x0).nit *
        ((defaultPar 1).h0 + ((defaultPar 1).q2 - 1) * |x0 0 - z 0|) ≤ 1 / 100000 :=
      (mul_le_mul p1 e1 e0 (by norm_num)).trans p2
    have p4 : |(calcfg y).2 0| * ((133 / 230 : ℝ) ^ (ralgb5 (defaultPar 1) big calcfg x0).nit *
        ((defaultPar 1).h0 + ((defaultPar 1).q2 - 1) * |x0 0 - z 0|)) ≤ G * (1 / 100000) :=
      mul_le_mul (hG y) p3 (mul_nonneg (by positivity) e0) G0
    have : (0 : ℝ) < 1 / 10 ^ 9 := by norm_num
    linarith
  · have := h2 hc
    have e1 : max |x0 0 - z 0| ((defaultPar 1).h0 + ((defaultPar 1).q2 - 1) * |x0 0 - z 0|) ≤ 500 := by
      refine max_le hr.le ?_
      simp only [defaultPar]; linarith
    have e2 : (defaultPar 1).tolg * max |x0 0 - z 0| ((defaultPar 1).h0 + ((defaultPar 1).q2 - 1) * |x0 0 - z 0|) ≤
        1 / 10 ^ 12 * 500 := mul_le_mul_of_nonneg_left e1 (by simp only [defaultPar]; norm_num)
    have e3 : (1 : ℝ) / 10 ^ 12 * 500 ≤ 1 / 10 ^ 9 := by norm_num
    have : 0 ≤ G / 100000 := by positivity
    linarith
  · obtain ⟨q, _, h4⟩ := h3 hc
    have e1 : |(calcfg q).2 0| * (defaultPar 1).tolx ≤ G * (1 / 100000) :=
      mul_le_mul (hG q) (by simp only [defaultPar]; norm_num) (by simp only [defaultPar]; norm_num) G0
    have : (0 : ℝ) < 1 / 10 ^ 9 := by norm_num
    linarith

/-- The slopes of `Tol` in one unknown are bounded by the weighted magnitudes. -/
theorem tol_slope {m : ℕ} (hm : 0 < m) (A : Fin m → Fin 1 → Iv K) (b : Fin m → Iv K) (w : Fin m → K) (hw : ∀ i, 0 ≤ w i)
    (G : K) (hG : ∀ i, w i * |(A i 0).a| ≤ G ∧ w i * |(A i 0).b| ≤ G) (y : Fin 1 → K) :
    |(RecFun.tol.objTotal (recData A b w) none y).2 0| ≤ G := by
  have G0 : 0 ≤ G := (mul_nonneg (hw ⟨0, hm⟩) (abs_nonneg _)).trans (hG ⟨0, hm⟩).1
  have hmix : ∀ mc (p q : Fin 1 → K), w mc * |p 0| ≤ G → w mc * |q 0| ≤ G →
      |w mc * mixRow p q y 0| ≤ G := by
    intro mc p q h1 h2
    rw [abs_mul, abs_of_nonneg (hw mc), mixRow]
    split_ifs <;> assumption
  simp only [RecFun.objTotal, RecFun.objective, RecFun.calcfg, tolCalcfg]
  cases npArgmin (tolArr (recData A b w) y) with
  | error e => simpa using G0
  | ok mc =>
    dsimp only
    rw [abs_neg]
    split_ifs
    · exact hmix mc _ _ (hG mc).1 (hG mc).2
    · beta_reduce
      rw [neg_mul, abs_neg]
      exact hmix mc _ _ (hG mc).2 (hG mc).1

/-- C111 for `Tol.maximize` with one unknown and the default parameters: the value found is greatest up to
`G / 100000 + 1e-9`, where `G` bounds the weighted magnitudes of the coefficients. -/
theorem C111_tol_accuracy {m : ℕ} (hm : 0 < m) (big : ℝ) (A : Fin m → Fin 1 → Iv ℝ) (b : Fin m → Iv ℝ) (w : Fin m → ℝ)
    (hA : ∀ i j, Ordinary (A i j)) (hw : ∀ i, 0 < w i) (x0 z : Fin 1 → ℝ) (v v0 : ℝ)
    (hz : RecFun.tol.value A b w z = .ok v) (hmax : ∀ y u, RecFun.tol.value A b w y = .ok u → u ≤ v)
    (h0 : RecFun.tol.value A b w x0 = .ok v0) (hr : |x0 0 - z 0| < 500) (hb1 : 1 ≤ big) (hb2 : max |v| |v0| ≤ big)
    (G : ℝ) (hG : ∀ i, w i * |(A i 0).a| ≤ G ∧ w i * |(A i 0).b| ≤ G) :
    ∃ o, RecFun.tol.maximize (defaultPar 1) big (recData A b w) none x0 = .ok o ∧
      v - (G / 100000 + 1 / 10 ^ 9) ≤ o.fr := by
  have hval : ∀ y, ∃ f g, RecFun.tol.calcfg (recData A b w) y = .ok (f, g) ∧ RecFun.tol.value A b w y = .ok (-f) :=
    fun y => C33_objective_is_minus_value .tol hm one_pos A b w y (recData A b w).infA (recData A b w).supA hA
  have hobj : ∀ y u, RecFun.tol.value A b w y = .ok u → (RecFun.tol.objTotal (recData A b w) none y).1 = -u := by
    intro y u hu
    obtain ⟨f, g, h1, h2⟩ := hval y
    rw [hu] at h2
    cases h2
    simp only [RecFun.objTotal, RecFun.objective, h1, neg_neg]
  have hmin : ∀ y, (RecFun.tol.objTotal (recData A b w) none z).1 ≤ (RecFun.tol.objTotal (recData A b w) none y).1 := by
    intro y
    obtain ⟨f, g, _, h2⟩ := hval y
    rw [hobj z v hz, hobj y _ h2]
    have := hmax y _ h2
    linarith
  have h := C111_accuracy big _ (tol_oracle hm one_pos A b w hA hw) x0 z hmin hr G
    (tol_slope hm A b w (fun i => (hw i).le) G hG) hb1 (by rw [hobj z v hz, hobj x0 v0 h0, abs_neg, abs_neg]; exact hb2)
  rw [hobj z v hz] at h
  obtain ⟨f0, g0, h1, _⟩ := hval x0
  refine ⟨{ ralgb5 (defaultPar 1) big (RecFun.tol.objTotal (recData A b w) none) x0 with
    fr := -(ralgb5 (defaultPar 1) big (RecFun.tol.objTotal (recData A b w) none) x0).fr }, ?_, ?_⟩
  · rw [RecFun.maximize, RecFun.objective, h1]
  · dsimp only
    linarith

/-- C141, partial, for one unknown: a system whose functional `Tol` reaches `G / 100000 + 1e-9` within 500 of the starting
point, where `G` bounds the coefficients, is not refused. -/
theorem C141_margin_partial {n : ℕ} (hn : 0 < n) (inv : (Fin 1 → Fin 1 → ℝ) → Except Err (Fin 1 → Fin 1 → ℝ)) (big : ℝ)
    (lp : LpSolver ℝ (Fin n ⊕ Fin n ⊕ (Fin 1 ⊕ Fin 1)) (Fin 1 ⊕ Fin 1)) (hlp : LpComplete lp)
    (x0 z : Fin 1 → ℝ) (A : Fin n → Fin 1 → Iv ℝ) (b : Fin n → Iv ℝ) (hA : ∀ i j, Ordinary (A i j)) (hB : TolAttained A b)
    (tol : ℝ) (maxiter : ℤ) (v v0 : ℝ) (hz : RecFun.tol.value A b (fun _ => 1) z = .ok v)
    (hmax : ∀ y u, RecFun.tol.value A b (fun _ => 1) y = .ok u → u ≤ v)
    (h0 : RecFun.tol.value A b (fun _ => 1) x0 = .ok v0) (hr : |x0 0 - z 0| < 500) (hb1 : 1 ≤ big)
    (hb2 : max |v| |v0| ≤ big) (G : ℝ) (hG : ∀ i, |(A i 0).a| ≤ G ∧ |(A i 0).b| ≤ G)
    (hv : G / 100000 + 1 / 10 ^ 9 ≤ v) :
    ∃ X, rohn inv (defaultPar 1) big lp x0 A b tol maxiter "tol" = .ok X := by
  obtain ⟨o, ho, hfr⟩ := C111_tol_accuracy hn big A b (fun _ => 1) hA (fun _ => one_pos) x0 z v v0 hz hmax h0 hr hb1 hb2 G
    (by simpa using hG)
  rw [rohn, if_neg (by decide), if_pos rfl, rohnTolFull, ho]
  exact C43_rohn_tol_returns lp hlp o.fr (by linarith) A b hA none (fun k => (hB k).1) (fun k => (hB k).2)

/-- The hypotheses of `C111_accuracy` hold for `|x - 1/3|` from `0`. -/
example : SubgradOracle (fun x : Fin 1 → ℝ => (|x 0 - 1 / 3|, fun _ => npSign (x 0 - 1 / 3))) ∧
    (∀ y : Fin 1 → ℝ, |npSign (y 0 - 1 / 3)| ≤ 1) := by
  refine ⟨fun x y => ?_, fun y => ?_⟩
  · simp only [Fin.sum_univ_one, npSign]
    have h1 := le_abs_self (y 0 - 1 / 3)
    have h2 := neg_le_abs (y 0 - 1 / 3)
    split_ifs with h h'
    · rw [abs_of_pos h]; linarith
    · rw [abs_of_neg h']; linarith
    · have : x 0 - 1 / 3 = 0 := le_antisymm (not_lt.1 h) (not_lt.1 h')
      rw [this, abs_zero]
      linarith [abs_nonneg (y 0 - 1 / 3)]
  · simp only [npSign]; split_ifs <;> norm_num

/-- The hypotheses of `C111_tol_accuracy` and `C141_margin_partial` hold for `x = [-1, 1]`: the functional is `1 - |x|`, and
the tolerable solutions are `[-1, 1]`. -/
example : (∀ y : Fin 1 → ℝ, RecFun.tol.value (fun _ _ => ⟨.classical, 1, 1⟩ : Fin 1 → Fin 1 → Iv ℝ)
      (fun _ => ⟨.classical, -1, 1⟩) (fun _ => 1) y = .ok (1 - |y 0|)) ∧
    TolAttained (fun _ _ => ⟨.classical, 1, 1⟩ : Fin 1 → Fin 1 → Iv ℝ) (fun _ => ⟨.classical, -1, 1⟩) ∧
    (1 : ℝ) / 100000 + 1 / 10 ^ 9 ≤ 1 := by
  have hO : Ordinary (⟨.classical, 1, 1⟩ : Iv ℝ) := ⟨rfl, le_refl _⟩
  have hv : ∀ y : Fin 1 → ℝ, RecFun.tol.value (fun _ _ => ⟨.classical, 1, 1⟩ : Fin 1 → Fin 1 → Iv ℝ)
      (fun _ => ⟨.classical, -1, 1⟩) (fun _ => 1) y = .ok (1 - |y 0|) := by
    intro y
    rw [RecFun.value, tolValue_eq one_pos _ _ _ _ fun _ _ => hO]
    simp only [npAmin, tolArr, infs, sups, amx, arx, recData, Iv.mid, Iv.rad, Iv.wid, Rnd.exact_nr, id, Fin.sum_univ_one,
      List.ofFn_succ, List.ofFn_zero, List.foldl_nil]
    norm_num
  have key : ∀ x : Fin 1 → ℝ, Tolerable (fun _ _ => ⟨.classical, 1, 1⟩ : Fin 1 → Fin 1 → Iv ℝ)
      (fun _ => ⟨.classical, -1, 1⟩) x ↔ -1 ≤ x 0 ∧ x 0 ≤ 1 := by
    intro x
    obtain ⟨v, h1, h2⟩ := C30_tol_iff_tolerable one_pos one_pos (fun _ _ => ⟨.classical, 1, 1⟩ : Fin 1 → Fin 1 → Iv ℝ)
      (fun _ => ⟨.classical, -1, 1⟩) (fun _ => 1) x (fun _ _ => hO) (fun _ => one_pos)
    have h3 := hv x
    change tolValue Rnd.exact _ _ _ x = _ at h3
    rw [h3] at h1
    cases h1
    rw [← h2, sub_nonneg, abs_le]
  refine ⟨hv, fun k => ?_, by norm_num⟩
  obtain rfl : k = 0 := Subsingleton.elim _ _
  exact ⟨⟨fun _ => -1, (key _).mpr (by norm_num), fun y hy => ((key y).mp hy).1⟩,
    ⟨fun _ => 1, (key _).mpr (by norm_num), fun y hy => ((key y).mp hy).2⟩⟩

end IntvalPy
