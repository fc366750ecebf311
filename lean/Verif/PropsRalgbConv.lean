import Verif.PropsRalgbStep

/-!
# C111: ralgb5 converges in one variable

For a convex function of one variable with a minimum the searches of `ralgb5` shrink at a fixed rate, so that the method
stops by one of its tolerances after a number of iterations known in advance.
-/

set_option autoImplicit false
set_option linter.unusedSectionVars false

namespace IntvalPy
open Spec

variable {K : Type*} [Field K] [LinearOrder K] [IsStrictOrderedRing K]

/-- At the end of a search: the last step had the length `l`, the search had not passed the minimum before it and has
passed it now; `h` is the step at the start, `r` the distance to the minimum, `t` the distance covered and `hs` the
step now (all in units of the direction). -/
def SearchEnd (q2 h r : K) (cal : ℕ) (hs t : K) : Prop :=
  cal ≤ 500 ∧ ∃ l tp, 0 < l ∧ t = tp + l ∧ 0 ≤ tp ∧ tp ≤ r ∧ r ≤ t ∧ l ≤ h + (q2 - 1) * tp ∧ l ≤ hs ∧ hs ≤ q2 * l ∧
    (cal = 1 → hs = q2 * l)

/-- What is promised about the search. -/
def Line.Ends (P : RalgPar K 1) (calcfg : (Fin 1 → K) → K × (Fin 1 → K)) (z p δ h r : K) (B : Fin 1 → Fin 1 → K)
    (g0 : Fin 1 → K) (nit : ℕ) :
    Line K 1 → Prop
  | .ret o => o.ccode = 2 ∧ o.nit = nit ∧ ∃ y, P.norm (calcfg y).2 < P.tolg ∧ o.fr ≤ (calcfg y).1 ∧
      |y 0 - z| ≤ max r (h + (P.q2 - 1) * r) * |δ|
  | .done s g1 deltax cal => s.B = B ∧ s.g0 = g0 ∧ s.nit = nit ∧ g1 = (calcfg s.x).2 ∧ ¬ P.norm g1 < P.tolg ∧
      δ * g1 0 ≤ 0 ∧ ∃ t, s.x 0 = p - t * δ ∧ deltax = t * |δ| ∧ SearchEnd P.q2 h r cal s.hs t

theorem lineSearch_ends {P : RalgPar K 1} (hE : Euclidean P) (hP : Positive P) (hq2 : 1 ≤ P.q2)
    (calcfg : (Fin 1 → K) → K × (Fin 1 → K)) (z : K) (hz : ∀ x, 0 ≤ (x 0 - z) * (calcfg x).2 0)
    (dx : Fin 1 → K) (hδ : dx 0 ≠ 0) (p h r : K) (hh : 0 < h) (hr : r < 500 * h) (hpz : p - z = r * dx 0)
    (B : Fin 1 → Fin 1 → K) (g0 : Fin 1 → K) (nit : ℕ) (fuel cal : ℕ) (deltax : K) (g1 : Fin 1 → K) (d : K) (s : RalgSt K 1)
    (hB : s.B = B) (hg0 : s.g0 = g0) (hnit : s.nit = nit) (hc : fuel + cal = 501) (t : K) (ht0 : 0 ≤ t) (hx : s.x 0 = p - t * dx 0)
    (hdl : deltax = t * |dx 0|) (hhs : h ≤ s.hs) (hgrow : s.hs ≤ h + (P.q2 - 1) * t) (hcal : cal * h ≤ t)
    (hgo : 0 < d → t ≤ r)
    (hend : ¬ 0 < d → g1 = (calcfg s.x).2 ∧ ¬ P.norm g1 < P.tolg ∧ dx 0 * g1 0 ≤ 0 ∧ SearchEnd P.q2 h r cal s.hs t) :
    (lineSearch P calcfg dx |dx 0| fuel cal deltax g1 d s).Ends P calcfg z p (dx 0) h r B g0 nit := by
  induction fuel generalizing cal deltax g1 d s t with
  | zero =>
    rw [lineSearch]
    by_cases hd : 0 < d
    · exfalso
      have h1 := hgo hd
      have h2 : cal = 501 := by omega
      rw [h2] at hcal
      push_cast at hcal
      linarith
    · obtain ⟨h1, h2, h3, h4⟩ := hend hd
      exact ⟨hB, hg0, hnit, h1, h2, h3, t, hx, hdl, h4⟩
  | succ fuel ih =>
    rw [lineSearch]
    by_cases hd : 0 < d
    swap
    · rw [if_neg hd]
      obtain ⟨h1, h2, h3, h4⟩ := hend hd
      exact ⟨hB, hg0, hnit, h1, h2, h3, t, hx, hdl, h4⟩
    rw [if_pos hd]
    simp only
    set x : Fin 1 → K := fun i => s.x i - s.hs * dx i with hxdef
    set v := calcfg x with hv
    set s1 : RalgSt K 1 := { s with x := x, ncalls := s.ncalls + 1, evals := s.evals ++ [x] } with hs1
    set s2 : RalgSt K 1 := if v.1 < s1.fr then { s1 with fr := v.1, xr := x } else s1 with hs2
    have e2 : s2.hs = s.hs ∧ s2.x = x ∧ s2.B = B ∧ s2.nit = nit ∧ s2.g0 = g0 := by
      rw [hs2]; split_ifs <;> exact ⟨rfl, rfl, hB, hnit, hg0⟩
    have hspos : 0 < s.hs := lt_of_lt_of_le hh hhs
    have htr := hgo hd
    have hx' : x 0 = p - (t + s.hs) * dx 0 := by rw [hxdef]; simp only [hx]; ring
    by_cases hg : P.norm v.2 < P.tolg
    · rw [if_pos hg]
      refine ⟨rfl, by change s2.nit = nit; exact e2.2.2.2.1, x, hg, ?_, ?_⟩
      · change s2.fr ≤ v.1
        rw [hs2]
        split_ifs with hlt
        · exact le_refl _
        · exact not_lt.1 hlt
      · have e : x 0 - z = (r - (t + s.hs)) * dx 0 := by rw [hx']; linear_combination hpz
        rw [e, abs_mul]
        refine mul_le_mul_of_nonneg_right (abs_le.2 ⟨?_, ?_⟩) (abs_nonneg _)
        · have h1 : (P.q2 - 1) * t ≤ (P.q2 - 1) * r := mul_le_mul_of_nonneg_left htr (by linarith)
          have h2 := le_max_right r (h + (P.q2 - 1) * r)
          linarith
        · have h2 := le_max_left r (h + (P.q2 - 1) * r)
          linarith
    rw [if_neg hg]
    have hv0 : v.2 0 ≠ 0 := by
      intro h0
      apply hg
      rw [hE.norm_one, h0, abs_zero]
      exact hP.tolg
    have hdot : dotF dx v.2 = dx 0 * v.2 0 := by rw [dotF, Fin.sum_univ_one]
    have hzx : 0 ≤ (r - (t + s.hs)) * (dx 0 * v.2 0) := by
      have := hz x
      rw [hx', ← hv] at this
      have e : p - (t + s.hs) * dx 0 - z = (r - (t + s.hs)) * dx 0 := by linear_combination hpz
      rw [e] at this
      linarith
    have key : ∀ s3 : RalgSt K 1, s3.x = s2.x → s3.B = s2.B → s3.nit = s2.nit → s3.g0 = s2.g0 →
        (s3.hs = s2.hs * P.q2 ∨ (s3.hs = s2.hs ∧ cal % P.nh ≠ 0)) →
        (lineSearch P calcfg dx |dx 0| fuel (cal + 1) (deltax + s.hs * |dx 0|) v.2 (dotF dx v.2) s3).Ends P calcfg z p
          (dx 0) h r B g0 nit := by
      intro s3 k1 k2 k3 k6 k4
      have hlo : s.hs ≤ s3.hs ∧ s3.hs ≤ P.q2 * s.hs := by
        rcases k4 with k4 | ⟨k4, _⟩ <;> rw [k4, e2.1] <;> constructor <;> nlinarith
      refine ih (cal + 1) _ _ _ s3 (k2.trans e2.2.2.1) (k6.trans e2.2.2.2.2) (k3.trans e2.2.2.2.1) (by omega) (t + s.hs) (by linarith) ?_ ?_ ?_ ?_
        ?_ ?_ ?_
      · rw [k1, e2.2.1]; exact hx'
      · rw [hdl]; ring
      · linarith
      · nlinarith
      · push_cast; linarith
      · intro hpos
        rw [hdot] at hpos
        by_contra hlt
        have : (r - (t + s.hs)) * (dx 0 * v.2 0) < 0 := mul_neg_of_neg_of_pos (by linarith [not_le.1 hlt]) hpos
        linarith
      · intro hneg
        refine ⟨by rw [k1, e2.2.1], hg, by rw [← hdot]; exact not_lt.1 hneg, ?_, s.hs, t, hspos, rfl, ht0, htr, ?_, hgrow, hlo.1, hlo.2, ?_⟩
        · by_contra hc5
          have h5 : 500 ≤ cal := by omega
          have : (500 : K) * h ≤ cal * h := mul_le_mul_of_nonneg_right (by exact_mod_cast h5) hh.le
          linarith
        · rw [hdot] at hneg
          have hne : dx 0 * v.2 0 < 0 := lt_of_le_of_ne (not_lt.1 hneg) (mul_ne_zero hδ hv0)
          by_contra hlt
          have : (r - (t + s.hs)) * (dx 0 * v.2 0) < 0 := mul_neg_of_pos_of_neg (by linarith [not_le.1 hlt]) hne
          linarith
        · intro h1
          rcases k4 with k4 | ⟨_, k5⟩
          · rw [k4, e2.1]; ring
          · exfalso
            apply k5
            have : cal = 0 := by omega
            rw [this, Nat.zero_mod]
    by_cases hc3 : cal % P.nh = 0
    · rw [if_pos hc3]
      exact key _ rfl rfl rfl rfl (Or.inl rfl)
    · rw [if_neg hc3]
      exact key _ rfl rfl rfl rfl (Or.inr ⟨rfl, hc3⟩)

/-- The factor by which a search is shorter than the one before it. -/
def rate (P : RalgPar K 1) : K := P.q2 / P.alpha + (P.q2 - 1)

/-- The parameters for which the searches shrink: the step never decreases during a search, and one dilation outweighs
the growth of the step; the default values are allowed. -/
structure Shrinking (P : RalgPar K 1) : Prop where
  q1 : P.q1 ≤ 1
  q2 : 1 ≤ P.q2
  alpha : P.alpha < 500
  alpha_q : P.alpha < 500 * (P.q1 * P.q2)

/-- After `j` more iterations a search of length less than `tolx` has been made: `r` bounds the distance to the minimum
and `e` the next step over it. -/
def Short (tolx ρ : K) : ℕ → K → K → Prop
  | 0, _, _ => False
  | j + 1, r, e => r + e < tolx ∨ Short tolx ρ j e (ρ * e)

/-- The invariant of the main loop in one variable, for a distance `r` to the minimum `z`. -/
structure Near (P : RalgPar K 1) (calcfg : (Fin 1 → K) → K × (Fin 1 → K)) (z r e : K) (s : RalgSt K 1) : Prop where
  hs : 0 < s.hs
  b : 0 < s.B 0 0
  grad : s.g0 = (calcfg s.x).2
  big : ¬ P.norm s.g0 < P.tolg
  dist : |s.x 0 - z| ≤ r
  reach : r < 500 * (s.hs * s.B 0 0)
  next : s.hs * s.B 0 0 + (P.q2 - 1) * r ≤ e

theorem Short.mono {tolx ρ : K} (hρ : 0 ≤ ρ) {j : ℕ} {r e r' e' : K} (h : Short tolx ρ j r e) (hr : r' ≤ r)
    (he : e' ≤ e) : Short tolx ρ j r' e' := by
  induction j generalizing r e r' e' with
  | zero => exact h
  | succ j ih =>
    rcases h with h | h
    · exact Or.inl (by linarith)
    · exact Or.inr (ih h he (mul_le_mul_of_nonneg_left he hρ))

/-- What an iteration leaves for the next one. -/
theorem Near.step {P : RalgPar K 1} (hP : Positive P) (hS : Shrinking P)
    {calcfg : (Fin 1 → K) → K × (Fin 1 → K)} {z l hs b : K} {cal : ℕ} {s : RalgSt K 1} (hl : 0 < l) (hb : 0 < b)
    (h1 : l ≤ hs) (h2 : hs ≤ P.q2 * l) (h3 : cal = 1 → hs = P.q2 * l)
    (k1 : s.hs = if cal = 1 then hs * P.q1 else hs) (k2 : s.B 0 0 = b / P.alpha) (k3 : s.g0 = (calcfg s.x).2)
    (k4 : ¬ P.norm s.g0 < P.tolg) (k5 : |s.x 0 - z| ≤ l * b) :
    Near P calcfg z (l * b) (rate P * (l * b)) s := by
  have ha := hP.alpha
  have hhs : 0 < hs := lt_of_lt_of_le hl h1
  have hpos : 0 < s.hs := by
    rw [k1]; split_ifs
    · exact mul_pos hhs hP.q1
    · exact hhs
  have hle : s.hs ≤ P.q2 * l := by
    rw [k1]; split_ifs
    · have := mul_le_mul_of_nonneg_left hS.q1 hhs.le
      linarith
    · exact h2
  have hlt : P.alpha * l < 500 * s.hs := by
    rw [k1]; split_ifs with hc
    · rw [h3 hc]
      have := mul_lt_mul_of_pos_right hS.alpha_q hl
      nlinarith
    · have := mul_lt_mul_of_pos_right hS.alpha hl
      linarith
  refine ⟨hpos, by rw [k2]; positivity, k3, k4, k5, ?_, ?_⟩
  · rw [k2]
    have e : 500 * (s.hs * (b / P.alpha)) = (500 * s.hs) * (b / P.alpha) := by ring
    have e' : l * b = (P.alpha * l) * (b / P.alpha) := by field_simp
    rw [e, e']
    exact mul_lt_mul_of_pos_right hlt (by positivity)
  · rw [k2, rate]
    have : s.hs * (b / P.alpha) ≤ P.q2 * l * (b / P.alpha) := mul_le_mul_of_nonneg_right hle (by positivity)
    have e : P.q2 * l * (b / P.alpha) = P.q2 / P.alpha * (l * b) := by field_simp
    rw [e] at this
    linarith

theorem rate_nonneg {P : RalgPar K 1} (hP : Positive P) (hS : Shrinking P) : 0 ≤ rate P := by
  have h1 := hP.q2
  have h2 := hP.alpha
  have h3 := hS.q2
  rw [rate]
  have : 0 < P.q2 / P.alpha := by positivity
  linarith

theorem ralgLoop_converges {P : RalgPar K 1} (hE : Euclidean P) (hP : Positive P) (hS : Shrinking P)
    (calcfg : (Fin 1 → K) → K × (Fin 1 → K)) (z : K) (hz : ∀ x, 0 ≤ (x 0 - z) * (calcfg x).2 0) (j k : ℕ) (hjk : j ≤ k)
    (r e M : K) (s : RalgSt K 1) (hN : Near P calcfg z r e s) (hsh : Short P.tolx (rate P) j r e) (hρ : rate P ≤ 1)
    (hrM : r ≤ M) (heM : e ≤ M) :
    ((ralgLoop P calcfg k s).ccode = 1 ∨ (ralgLoop P calcfg k s).ccode = 2 ∨ (ralgLoop P calcfg k s).ccode = 3) ∧
      (ralgLoop P calcfg k s).nit < s.nit + j ∧
      ((ralgLoop P calcfg k s).ccode = 2 → ∃ y, P.norm (calcfg y).2 < P.tolg ∧
        (ralgLoop P calcfg k s).fr ≤ (calcfg y).1 ∧ |y 0 - z| ≤ M) := by
  induction j generalizing k r e s with
  | zero => exact hsh.elim
  | succ j ih =>
    obtain ⟨k, rfl⟩ : ∃ k', k = k' + 1 := ⟨k - 1, by omega⟩
    have hb := hN.b
    have hg0 : s.g0 0 ≠ 0 := by
      intro h
      apply hN.big
      rw [hE.norm_one, h, abs_zero]
      exact hP.tolg
    have hu0 : matTVec s.B s.g0 0 = s.B 0 0 * s.g0 0 := by rw [matTVec, Fin.sum_univ_one]
    have hu : matTVec s.B s.g0 ≠ 0 := fun h => by
      have := congrFun h 0
      rw [hu0] at this
      exact mul_ne_zero hb.ne' hg0 this
    set dx := matVecF s.B (P.normalize (matTVec s.B s.g0)) with hdx
    set σ := P.normalize (matTVec s.B s.g0) 0 with hσ
    have hσ2 : σ * σ = 1 := by
      have := hE.unit_sq hu
      rwa [Fin.sum_univ_one] at this
    have hdx0 : dx 0 = s.B 0 0 * σ := by rw [hdx, matVecF, Fin.sum_univ_one]
    have hσa : |σ| = 1 := by
      have : |σ| * |σ| = 1 * 1 := by rw [abs_mul_abs_self, hσ2, one_mul]
      exact (mul_self_inj (abs_nonneg _) zero_le_one).1 this
    have habs : |dx 0| = s.B 0 0 := by rw [hdx0, abs_mul, abs_of_pos hb, hσa, mul_one]
    have hδ : dx 0 ≠ 0 := by
      intro h
      rw [h, abs_zero] at habs
      exact hb.ne habs
    have hpos : 0 < dx 0 * s.g0 0 := by
      have h1 := hE.unit_dot hu
      rw [Fin.sum_univ_one, hu0] at h1
      have h2 := hE.norm_pos hu
      rw [hdx0]
      have : s.B 0 0 * σ * s.g0 0 = P.norm (matTVec s.B s.g0) := by rw [← h1]; ring
      rw [this]; exact h2
    set r' := (s.x 0 - z) / dx 0 with hr'
    have hpz : s.x 0 - z = r' * dx 0 := by rw [hr']; field_simp
    have hr0 : 0 ≤ r' := by
      have h1 := hz s.x
      rw [← hN.grad, hpz, mul_assoc] at h1
      exact nonneg_of_mul_nonneg_left h1 hpos
    have hrb : r' * s.B 0 0 ≤ r := by
      have h1 := hN.dist
      rw [hpz, abs_mul, habs, abs_of_nonneg hr0] at h1
      exact h1
    have hr5 : r' < 500 * s.hs := by
      by_contra h
      have := mul_le_mul_of_nonneg_right (not_lt.1 h) hb.le
      have h2 := hN.reach
      linarith
    rw [ralgLoop]
    simp only
    have hnd : P.norm dx = |dx 0| := hE.norm_one dx
    rw [hnd]
    have hline := lineSearch_ends hE hP hS.q2 calcfg z hz dx hδ (s.x 0) s.hs r' hN.hs hr5 hpz s.B s.g0 s.nit 501 0 0
      (matTVec s.B s.g0) 1 { s with vf := s.vf.set (P.nsims - 1) s.fr } rfl rfl rfl rfl 0 (le_refl _) (by simp) (by simp)
      (le_refl _) (by simp) (by simp) (fun _ => hr0) (fun h => absurd one_pos h)
    generalize lineSearch P calcfg dx |dx 0| 501 0 0 (matTVec s.B s.g0) 1
      { s with vf := s.vf.set (P.nsims - 1) s.fr } = L at hline ⊢
    cases L with
    | ret o =>
      obtain ⟨o1, o2, y, y1, y2, y3⟩ := hline
      refine ⟨Or.inr (Or.inl o1), by rw [o2]; omega, fun _ => ⟨y, y1, y2, y3.trans ?_⟩⟩
      rw [habs, max_mul_of_nonneg _ _ hb.le]
      refine max_le (hrb.trans hrM) (le_trans ?_ heM)
      have h2 : (P.q2 - 1) * (r' * s.B 0 0) ≤ (P.q2 - 1) * r := mul_le_mul_of_nonneg_left hrb (by linarith [hS.q2])
      have h3 := hN.next
      linarith
    | done s1 g1 deltax cal =>
      obtain ⟨a1, a0, a2, a3, a4, a5, t, a6, a7, a8, l, tp, l0, b1, b2, b3, b4, b5, b6, b7, b8⟩ := hline
      simp only
      rw [if_neg (by omega : ¬ 500 < cal)]
      have hlb : l * s.B 0 0 ≤ e := by
        have h1 := mul_le_mul_of_nonneg_right b5 hb.le
        have h2 : (P.q2 - 1) * (tp * s.B 0 0) ≤ (P.q2 - 1) * r :=
          mul_le_mul_of_nonneg_left ((mul_le_mul_of_nonneg_right b3 hb.le).trans hrb) (by linarith [hS.q2])
        have h3 := hN.next
        linarith
      have hdl : deltax ≤ r + e := by
        rw [a7, habs, b1]
        have h2 := (mul_le_mul_of_nonneg_right b3 hb.le).trans hrb
        linarith
      have hx1 : |s1.x 0 - z| ≤ l * s.B 0 0 := by
        have e1 : s1.x 0 - z = (r' - t) * dx 0 := by rw [a6]; linear_combination hpz
        rw [e1, abs_mul, habs, abs_of_nonpos (by linarith)]
        exact mul_le_mul_of_nonneg_right (by linarith) hb.le
      have hdg : (matTVec s1.B fun i => g1 i - s1.g0 i) ≠ 0 := by
        intro h
        have h1 := congrFun h 0
        rw [matTVec, Fin.sum_univ_one, a1, a0, Pi.zero_apply] at h1
        have h2 : g1 0 = s.g0 0 := by
          have := (mul_eq_zero.1 h1).resolve_left hb.ne'
          linarith
        rw [h2] at a5
        linarith
      have hxi := hE.unit_sq hdg
      rw [Fin.sum_univ_one] at hxi
      have hB' : s1.B 0 0 + (1 / P.alpha - 1) *
          (matVecF s1.B (P.normalize (matTVec s1.B fun i => g1 i - s1.g0 i)) 0 *
            P.normalize (matTVec s1.B fun i => g1 i - s1.g0 i) 0) = s.B 0 0 / P.alpha := by
        rw [matVecF, Fin.sum_univ_one, mul_assoc, hxi, a1]
        ring
      have hnext : ∀ hs' vf, hs' = (if cal = 1 then s1.hs * P.q1 else s1.hs) →
          Near P calcfg z (l * s.B 0 0) (rate P * (l * s.B 0 0)) { s1 with
            hs := hs'
            B := fun i j => s1.B i j + (1 / P.alpha - 1) *
              (matVecF s1.B (P.normalize (matTVec s1.B fun i => g1 i - s1.g0 i)) i *
                P.normalize (matTVec s1.B fun i => g1 i - s1.g0 i) j)
            g0 := g1
            vf := vf
            nit := s1.nit + 1 } :=
        fun hs' vf hh => Near.step hP hS l0 hb b6 b7 b8 hh hB' a3 a4 hx1
      have hρl : rate P * (l * s.B 0 0) ≤ M := by
        have := mul_le_mul_of_nonneg_right hρ (mul_pos l0 hb).le
        linarith
      have hsh' : deltax < P.tolx ∨ Short P.tolx (rate P) j (l * s.B 0 0) (rate P * (l * s.B 0 0)) := by
        rcases hsh with h | h
        · exact Or.inl (by linarith)
        · exact Or.inr (h.mono (rate_nonneg hP hS) hlb (mul_le_mul_of_nonneg_left hlb (rate_nonneg hP hS)))
      by_cases c1 : cal = 1
      · simp only [if_pos c1]
        split_ifs with c3 cf cf
        · exact ⟨Or.inr (Or.inr rfl), by change s1.nit < _; omega, fun h => by simp [RalgSt.out] at h⟩
        all_goals first
          | exact ⟨Or.inl rfl, by change s1.nit < _; omega, fun h => by simp [RalgSt.out] at h⟩
          | skip
        all_goals
          have := ih k (by omega) _ _ _ (hnext (s1.hs * P.q1) ((npRoll s1.vf).set 0 |s1.fr - (npRoll s1.vf).headD 0|)
            (by rw [if_pos c1])) (hsh'.resolve_left c3)
            (hlb.trans heM) hρl
          exact ⟨this.1, by have h2 := this.2.1; simp only at h2; omega, this.2.2⟩
      · simp only [if_neg c1]
        split_ifs with c3 cf cf
        · exact ⟨Or.inr (Or.inr rfl), by change s1.nit < _; omega, fun h => by simp [RalgSt.out] at h⟩
        all_goals first
          | exact ⟨Or.inl rfl, by change s1.nit < _; omega, fun h => by simp [RalgSt.out] at h⟩
          | skip
        all_goals
          have := ih k (by omega) _ _ _ (hnext s1.hs ((npRoll s1.vf).set 0 |s1.fr - (npRoll s1.vf).headD 0|)
            (by rw [if_neg c1])) (hsh'.resolve_left c3)
            (hlb.trans heM) hρl
          exact ⟨this.1, by have h2 := this.2.1; simp only at h2; omega, this.2.2⟩

theorem short_of {tolx ρ : K} (N : ℕ) (r e : K) (h : ρ ^ N * (e * (1 + ρ)) < tolx) : Short tolx ρ (N + 2) r e := by
  induction N generalizing r e with
  | zero => exact Or.inr (Or.inl (by linarith))
  | succ N ih => exact Or.inr (ih e (ρ * e) (by rw [pow_succ] at h; linarith))

/-- The conditions on the parameters under which the method converges in one variable. -/
structure Convergent (P : RalgPar K 1) : Prop extends Shrinking P where
  rate : rate P ≤ 1
  tolx : 0 < P.tolx

/-- C111: minimising a convex function of one variable, with a minimum at `z` at most `r < 500 h0` away from the start,
`ralgb5` stops by one of its tolerances after at most `N + 1` iterations, where `N` is known in advance.  If it stops by
the subgradient or by the argument, the returned value is least up to the tolerance times a distance, or times a
subgradient. -/
theorem C111_converges {P : RalgPar K 1} (hE : Euclidean P) (hP : Positive P) (hC : Convergent P) (big : K)
    (calcfg : (Fin 1 → K) → K × (Fin 1 → K)) (hf : SubgradOracle calcfg) (x0 z : Fin 1 → K)
    (hmin : ∀ y, (calcfg z).1 ≤ (calcfg y).1) (r : K) (hr : |x0 0 - z 0| ≤ r) (hr5 : r < 500 * P.h0) (N : ℕ)
    (hN : rate P ^ N * ((P.h0 + (P.q2 - 1) * r) * (1 + rate P)) < P.tolx) (hmax : N + 1 ≤ P.maxiter) :
    ((ralgb5 P big calcfg x0).ccode = 1 ∨ (ralgb5 P big calcfg x0).ccode = 2 ∨ (ralgb5 P big calcfg x0).ccode = 3) ∧
      (ralgb5 P big calcfg x0).nit ≤ N + 1 ∧
      ((ralgb5 P big calcfg x0).ccode = 2 →
        (ralgb5 P big calcfg x0).fr ≤ (calcfg z).1 + P.tolg * max r (P.h0 + (P.q2 - 1) * r)) ∧
      ((ralgb5 P big calcfg x0).ccode = 3 → ∃ q, (ralgb5 P big calcfg x0).evals.getLast? = some q ∧
        (ralgb5 P big calcfg x0).fr ≤ (calcfg z).1 + |(calcfg q).2 0| * P.tolx) := by
  have hz : ∀ x, 0 ≤ (x 0 - z 0) * (calcfg x).2 0 := by
    intro x
    have h1 := hf x z
    have h2 := hmin x
    rw [Fin.sum_univ_one] at h1
    linarith
  have hfin : ∀ y, P.norm (calcfg y).2 < P.tolg → |y 0 - z 0| ≤ max r (P.h0 + (P.q2 - 1) * r) →
      (calcfg y).1 ≤ (calcfg z).1 + P.tolg * max r (P.h0 + (P.q2 - 1) * r) := by
    intro y h1 h2
    have h3 := hf y z
    rw [Fin.sum_univ_one] at h3
    rw [hE.norm_one] at h1
    have h4 : |(calcfg y).2 0 * (z 0 - y 0)| ≤ P.tolg * max r (P.h0 + (P.q2 - 1) * r) := by
      rw [abs_mul, abs_sub_comm (z 0)]
      exact mul_le_mul h1.le h2 (abs_nonneg _) hP.tolg.le
    have h5 := neg_abs_le ((calcfg y).2 0 * (z 0 - y 0))
    linarith
  have h3 : (ralgb5 P big calcfg x0).ccode = 3 → ∃ q, (ralgb5 P big calcfg x0).evals.getLast? = some q ∧
        (ralgb5 P big calcfg x0).fr ≤ (calcfg z).1 + |(calcfg q).2 0| * P.tolx := by
    intro hc
    obtain ⟨q, q1, q2⟩ := C110_one_variable hE hP big calcfg hf x0 hc
    refine ⟨q, q1, ?_⟩
    by_cases h : (calcfg z).1 < (ralgb5 P big calcfg x0).fr
    · exact (q2 z h).2
    · have := mul_nonneg (abs_nonneg ((calcfg q).2 0)) hC.tolx.le
      linarith [not_lt.1 h]
  have key : ((ralgb5 P big calcfg x0).ccode = 1 ∨ (ralgb5 P big calcfg x0).ccode = 2 ∨
      (ralgb5 P big calcfg x0).ccode = 3) ∧ (ralgb5 P big calcfg x0).nit ≤ N + 1 ∧
      ((ralgb5 P big calcfg x0).ccode = 2 → ∃ y, P.norm (calcfg y).2 < P.tolg ∧
        (ralgb5 P big calcfg x0).fr ≤ (calcfg y).1 ∧ |y 0 - z 0| ≤ max r (P.h0 + (P.q2 - 1) * r)) := by
    rw [ralgb5]
    by_cases h : P.norm (calcfg x0).2 < P.tolg
    · rw [if_pos h]
      exact ⟨Or.inr (Or.inl rfl), Nat.zero_le _, fun _ => ⟨x0, h, le_refl _, hr.trans (le_max_left _ _)⟩⟩
    · rw [if_neg h]
      have := ralgLoop_converges hE hP hC.toShrinking calcfg (z 0) hz (N + 2) (P.maxiter + 1) (by omega) r
        (P.h0 + (P.q2 - 1) * r) (max r (P.h0 + (P.q2 - 1) * r))
        ⟨P.h0, fun i j => if i = j then 1 else 0, List.replicate P.nsims big, x0, x0, (calcfg x0).1, (calcfg x0).2, 0, 1,
          [x0]⟩ ⟨hP.h0, by simp, rfl, h, hr, by simpa using hr5, by simp⟩ (short_of N _ _ hN) hC.rate (le_max_left _ _)
        (le_max_right _ _)
      refine ⟨this.1, ?_, this.2.2⟩
      have h2 := this.2.1
      simp only at h2
      omega
  refine ⟨key.1, key.2.1, fun hc => ?_, h3⟩
  obtain ⟨y, y1, y2, y3⟩ := key.2.2 hc
  exact y2.trans (hfin y y1 y3)

theorem defaultPar_convergent : Convergent (defaultPar 1) where
  q1 := by simp only [defaultPar]; norm_num
  q2 := by simp only [defaultPar]; norm_num
  alpha := by simp only [defaultPar]; norm_num
  alpha_q := by simp only [defaultPar]; norm_num
  rate := by simp only [rate, defaultPar]; norm_num
  tolx := by simp only [defaultPar]; norm_num

/-- C111 for the default parameters: a convex function of one real variable with a minimum less than 500 away from the
start is minimised in at most 60 iterations. -/
theorem C111_default (big : ℝ) (calcfg : (Fin 1 → ℝ) → ℝ × (Fin 1 → ℝ)) (hf : SubgradOracle calcfg) (x0 z : Fin 1 → ℝ)
    (hmin : ∀ y, (calcfg z).1 ≤ (calcfg y).1) (hr : |x0 0 - z 0| < 500) :
    ((ralgb5 (defaultPar 1) big calcfg x0).ccode = 1 ∨ (ralgb5 (defaultPar 1) big calcfg x0).ccode = 2 ∨
      (ralgb5 (defaultPar 1) big calcfg x0).ccode = 3) ∧ (ralgb5 (defaultPar 1) big calcfg x0).nit ≤ 60 := by
  have h := C111_converges (defaultPar_euclidean 1) (defaultPar_positive 1) defaultPar_convergent big calcfg hf x0 z hmin
    |x0 0 - z 0| (le_refl _) (by simp only [defaultPar]; linarith) 59 (by
      simp only [rate, defaultPar]
      have e1 : (1 : ℝ) + (11 / 10 - 1) * |x0 0 - z 0| ≤ 51 := by linarith
      have e2 : ((11 : ℝ) / 10 / (23 / 10) + (11 / 10 - 1)) = 133 / 230 := by norm_num
      rw [e2]
      have e3 : (133 / 230 : ℝ) ^ 59 * ((1 + (11 / 10 - 1) * |x0 0 - z 0|) * (1 + 133 / 230)) ≤
          (133 / 230 : ℝ) ^ 59 * (51 * (1 + 133 / 230)) := by
        refine mul_le_mul_of_nonneg_left ?_ (by positivity)
        exact mul_le_mul_of_nonneg_right e1 (by norm_num)
      refine lt_of_le_of_lt e3 ?_
      norm_num) (by simp only [defaultPar]; norm_num)
  exact ⟨h.1, h.2.1⟩

/-- The objective passed to `ralgb5` by `Tol.maximize` is a convex function with its subgradients. -/
theorem tol_oracle {m n : ℕ} (hm : 0 < m) (hn : 0 < n) (A : Fin m → Fin n → Iv K) (b : Fin m → Iv K) (w : Fin m → K)
    (hA : ∀ i j, Ordinary (A i j)) (hw : ∀ i, 0 < w i) :
    SubgradOracle (RecFun.tol.objTotal (recData A b w) none) := by
  intro x y
  obtain ⟨f, g, h1, h2⟩ := C33_objective_is_minus_value .tol hm hn A b w x (recData A b w).infA (recData A b w).supA hA
  obtain ⟨f', g', h3, h4⟩ := C33_objective_is_minus_value .tol hm hn A b w y (recData A b w).infA (recData A b w).supA hA
  change RecFun.tol.calcfg (recData A b w) x = _ at h1
  change RecFun.tol.calcfg (recData A b w) y = _ at h3
  simp only [RecFun.objTotal, RecFun.objective, h1, h3]
  have := C32_tol_supergradient_partial hn A b w hA hw x y f g (-f') h1 h4
  have e : ∑ j, -g j * (y j - x j) = - ∑ j, g j * (y j - x j) := by
    rw [← Finset.sum_neg_distrib]
    exact Finset.sum_congr rfl fun j _ => by ring
  rw [e] at this
  linarith

/-- C111 for `Tol.maximize` with one unknown: if the functional has its maximum less than 500 away from the start, the
maximisation with the default parameters stops by a tolerance after at most 60 iterations. -/
theorem C111_tol {m : ℕ} (hm : 0 < m) (big : ℝ) (A : Fin m → Fin 1 → Iv ℝ) (b : Fin m → Iv ℝ) (w : Fin m → ℝ)
    (hA : ∀ i j, Ordinary (A i j)) (hw : ∀ i, 0 < w i) (x0 z : Fin 1 → ℝ) (v : ℝ)
    (hz : RecFun.tol.value A b w z = .ok v) (hmax : ∀ y u, RecFun.tol.value A b w y = .ok u → u ≤ v)
    (hr : |x0 0 - z 0| < 500) :
    ∃ o, RecFun.tol.maximize (defaultPar 1) big (recData A b w) none x0 = .ok o ∧
      (o.ccode = 1 ∨ o.ccode = 2 ∨ o.ccode = 3) ∧ o.nit ≤ 60 := by
  have hval : ∀ y, ∃ f g, RecFun.tol.calcfg (recData A b w) y = .ok (f, g) ∧ RecFun.tol.value A b w y = .ok (-f) :=
    fun y => C33_objective_is_minus_value .tol hm one_pos A b w y (recData A b w).infA (recData A b w).supA hA
  obtain ⟨f0, g0, h0, _⟩ := hval x0
  have h := C111_default big _ (tol_oracle hm one_pos A b w hA hw) x0 z (by
    intro y
    obtain ⟨f, g, h1, h2⟩ := hval z
    obtain ⟨f', g', h3, h4⟩ := hval y
    simp only [RecFun.objTotal, RecFun.objective, h1, h3]
    rw [hz] at h2
    cases h2
    have := hmax y _ h4
    linarith) hr
  refine ⟨{ ralgb5 (defaultPar 1) big (RecFun.tol.objTotal (recData A b w) none) x0 with
    fr := -(ralgb5 (defaultPar 1) big (RecFun.tol.objTotal (recData A b w) none) x0).fr }, ?_, h.1, h.2⟩
  rw [RecFun.maximize, RecFun.objective, h0]

/-- The hypotheses of `C111_converges` and `C111_default` hold for `|x - 1/3|`. -/
example : SubgradOracle (fun x : Fin 1 → ℝ => (|x 0 - 1 / 3|, fun _ => npSign (x 0 - 1 / 3))) ∧
    (∀ y : Fin 1 → ℝ, |(fun _ => 1 / 3 : Fin 1 → ℝ) 0 - 1 / 3| ≤ |y 0 - 1 / 3|) ∧
    |(fun _ => 0 : Fin 1 → ℝ) 0 - (fun _ => 1 / 3 : Fin 1 → ℝ) 0| < 500 := by
  refine ⟨fun x y => ?_, fun y => by simp, by norm_num [abs_lt]⟩
  simp only [Fin.sum_univ_one, npSign]
  have h1 := le_abs_self (y 0 - 1 / 3)
  have h2 := neg_le_abs (y 0 - 1 / 3)
  split_ifs with h h'
  · rw [abs_of_pos h]; linarith
  · rw [abs_of_neg h']; linarith
  · have : x 0 - 1 / 3 = 0 := le_antisymm (not_lt.1 h) (not_lt.1 h')
    rw [this, abs_zero]
    linarith [abs_nonneg (y 0 - 1 / 3)]

/-- A run of the model: `|x - 1/3|` with `alpha = 2` stops by the argument in the 13th iteration, within the bound. -/
example : Convergent { demoPar with tolf := 0, maxiter := 30 } ∧
    (ralgb5 { demoPar with tolf := 0, maxiter := 30 } 1000000
      (fun x => (|x 0 - 1 / 3|, fun _ => npSign (x 0 - 1 / 3))) (fun _ => 0)).nit = 12 :=
  ⟨⟨⟨by norm_num [demoPar], by norm_num [demoPar], by norm_num [demoPar], by norm_num [demoPar]⟩,
    by norm_num [demoPar, rate], by norm_num [demoPar]⟩, by decide +kernel⟩

/-- The hypotheses of `C111_tol` hold for `[1, 1] x = [-1, 1]`, whose functional is `1 - |x|`. -/
example : RecFun.tol.value (fun _ _ => ⟨.classical, 1, 1⟩ : Fin 1 → Fin 1 → Iv ℝ) (fun _ => ⟨.classical, -1, 1⟩)
      (fun _ => 1) (fun _ => 0) = .ok 1 ∧
    ∀ y u, RecFun.tol.value (fun _ _ => ⟨.classical, 1, 1⟩ : Fin 1 → Fin 1 → Iv ℝ) (fun _ => ⟨.classical, -1, 1⟩)
      (fun _ => 1) y = .ok u → u ≤ 1 := by
  have hO : Ordinary (⟨.classical, 1, 1⟩ : Iv ℝ) := ⟨rfl, le_refl _⟩
  have h : ∀ y : Fin 1 → ℝ, RecFun.tol.value (fun _ _ => ⟨.classical, 1, 1⟩ : Fin 1 → Fin 1 → Iv ℝ)
      (fun _ => ⟨.classical, -1, 1⟩) (fun _ => 1) y = .ok (1 - |y 0|) := by
    intro y
    rw [RecFun.value, tolValue_eq one_pos _ _ _ _ fun _ _ => hO]
    simp only [npAmin, tolArr, infs, sups, amx, arx, recData, Iv.mid, Iv.rad, Iv.wid, Rnd.exact_nr, id, Fin.sum_univ_one,
      List.ofFn_succ, List.ofFn_zero, List.foldl_nil]
    norm_num
  refine ⟨by rw [h]; simp, fun y u hu => ?_⟩
  rw [h] at hu
  cases hu
  linarith [abs_nonneg (y 0)]

end IntvalPy
