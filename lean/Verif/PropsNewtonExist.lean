import Verif.PropsNonlinear
import Mathlib.Topology.Order.IntermediateValue
import Mathlib.Topology.Algebra.Order.Field
import Mathlib.Topology.Instances.Real.Lemmas
import Mathlib.Topology.Order.Compact

/-!
# When the result of `HansenSengupta` or `Krawczyk` proves that there is a zero (C148)

/repo/intvalpy/nonlinear/external_evaluation.py.  Both functions only promise that no zero is lost (C39, C40).  Here:
a returned interval in the interior of the start interval proves a change of sign, hence a zero.
-/

set_option autoImplicit false
set_option linter.unusedSectionVars false

namespace IntvalPy
open Spec

variable {K : Type*} [Field K] [LinearOrder K] [IsStrictOrderedRing K]

/-- `f` has opposite signs at the ends of `x0`, `σ` giving the direction. -/
def SignChange (f : K → K) (x0 : Iv K) (σ : K) : Prop := σ * f x0.a < 0 ∧ 0 < σ * f x0.b

/-- `Z` is in the interior of `x0`, and not within `m` of one of the ends.  The `m` is there because `intersection`
treats intervals at most `1e-15` apart as touching. -/
def WellInside (Z x0 : Iv K) (m : K) : Prop := x0.a < Z.a ∧ Z.b < x0.b ∧ x0.a + m < Z.b ∧ Z.a < x0.b - m

/-- What an end that moves says about the sign of the function there. -/
def EndSign (f : K → K) (σ : K) (X Z : Iv K) : Prop :=
  Z.a ≤ Z.b ∧ (X.a < X.b → (X.a < Z.a → σ * f X.a < 0) ∧ (Z.b < X.b → 0 < σ * f X.b))

/-- The state of the loop when intersections were off by `m` altogether. -/
def Progress (G : K → Prop) (f : K → K) (x0 : Iv K) (σ m : K) (X : Iv K) : Prop :=
  X.a ≤ X.b ∧ (X.b ≤ x0.a + m ∨ x0.b - m ≤ X.a ∨ SignChange f x0 σ ∨
    (Ordinary X ∧ Sub X x0 ∧ G X.a ∧ G X.b ∧ (X.a = x0.a ∨ σ * f x0.a < 0) ∧ (X.b = x0.b ∨ 0 < σ * f x0.b)))

theorem inter_gap (R : Rnd K) (T : K) (hT : interTol < R.dn T) (t : K) (h : R.nr t ≤ interTol) : t < T := by
  by_contra hc
  exact absurd (hT.trans_le ((R.dn_mono (not_lt.mp hc)).trans ((R.dn_le_nr t).trans h))) (lt_irrefl _)

theorem inter_cases (R : Rnd K) (T : K) (hT : interTol < R.dn T) (X Z r : Iv K) (h : intersect R X Z = some r) :
    (r.cls = .classical ∧ r.a = max X.a Z.a ∧ r.b = min X.b Z.b ∧ r.a ≤ r.b) ∨
    (r.cls = .classical ∧ r.b = max X.a Z.a ∧ r.a = min X.b Z.b ∧ r.a < r.b ∧ r.b < r.a + T) := by
  have e1 : (if X.a < Z.a then Z.a else X.a) = max X.a Z.a := by
    split_ifs with h1
    · exact (max_eq_right h1.le).symm
    · exact (max_eq_left (not_lt.mp h1)).symm
  have e2 : (if X.b < Z.b then X.b else Z.b) = min X.b Z.b := by
    split_ifs with h1
    · exact (min_eq_left h1.le).symm
    · exact (min_eq_right (not_lt.mp h1)).symm
  unfold intersect at h
  dsimp only at h
  rw [e1, e2] at h
  split_ifs at h with h1 h2
  · cases h
    have := inter_gap R T hT _ h1
    exact Or.inr ⟨rfl, rfl, rfl, h2, by dsimp only; linarith⟩
  · cases h
    exact Or.inl ⟨rfl, rfl, rfl, not_lt.mp h2⟩

/-- One intersection from a state in which both ends are accounted for. -/
theorem progress_good (R : Rnd K) (G : K → Prop) (T : K) (hT : interTol < R.dn T) (hT0 : 0 ≤ T) (f : K → K) (x0 : Iv K)
    (σ m : K) (hm : 0 ≤ m) (X Z r : Iv K) (oX : Ordinary X) (hs : Sub X x0) (ga : G X.a) (gb : G X.b)
    (gZ : G Z.a ∧ G Z.b) (hl : X.a = x0.a ∨ σ * f x0.a < 0) (hr : X.b = x0.b ∨ 0 < σ * f x0.b)
    (hZ : EndSign f σ X Z) (h : intersect R X Z = some r) : Progress G f x0 σ (m + T) r := by
  obtain ⟨zo, hz⟩ := hZ
  have gr := intersect_ends R G X Z r ⟨ga, gb⟩ gZ h
  have xs : x0.a ≤ X.a ∧ X.b ≤ x0.b := ⟨(hs X.a ⟨le_refl _, oX.2⟩).1, (hs X.b ⟨oX.2, le_refl _⟩).2⟩
  rcases inter_cases R T hT X Z r h with ⟨rc, ra, rb, ro⟩ | ⟨rc, rb, ra, ro, rT⟩
  · refine ⟨ro, Or.inr (Or.inr (Or.inr ⟨⟨rc, ro⟩, fun t ht => ?_, gr.1, gr.2, ?_, ?_⟩))⟩
    · have h1 : max X.a Z.a ≤ t := ra ▸ ht.1
      have h2 : t ≤ min X.b Z.b := rb ▸ ht.2
      exact hs t ⟨(le_max_left _ _).trans h1, h2.trans (min_le_left _ _)⟩
    · rcases hl with hl | hl
      · rcases le_or_gt Z.a X.a with hc | hc
        · left; rw [ra, max_eq_left hc, hl]
        · right
          have hne : X.a < X.b := by
            have : max X.a Z.a ≤ min X.b Z.b := by rw [← ra, ← rb]; exact ro
            exact hc.trans_le ((le_max_right _ _).trans (this.trans (min_le_left _ _)))
          exact hl ▸ (hz hne).1 hc
      · exact Or.inr hl
    · rcases hr with hr | hr
      · rcases le_or_gt X.b Z.b with hc | hc
        · left; rw [rb, min_eq_left hc, hr]
        · right
          have hne : X.a < X.b := by
            have : max X.a Z.a ≤ min X.b Z.b := by rw [← ra, ← rb]; exact ro
            exact ((le_max_left _ _).trans (this.trans (min_le_right _ _))).trans_lt hc
          exact hr ▸ (hz hne).2 hc
      · exact Or.inr hr
  · refine ⟨ro.le, ?_⟩
    have hor : X.b < Z.a ∨ Z.b < X.a := by
      by_contra hc
      obtain ⟨h1, h2⟩ := not_or.mp hc
      have : max X.a Z.a ≤ min X.b Z.b :=
        max_le (le_min oX.2 (not_lt.mp h2)) (le_min (not_lt.mp h1) zo)
      rw [← rb, ← ra] at this
      exact absurd ro (not_lt.mpr this)
    rcases hor with hc | hc
    · -- `Z` lies to the right of `X`
      have ea : r.a = X.b := by rw [ra, min_eq_left (hc.le.trans zo)]
      rcases hr with hr | hr
      · right; left; rw [ea, hr]; linarith
      · rcases hl with hl | hl
        · rcases oX.2.eq_or_lt with he | hne
          · left
            have : r.a = x0.a := by rw [ea, ← he, hl]
            linarith
          · right; right; left
            exact ⟨hl ▸ (hz hne).1 (hne.trans hc), hr⟩
        · exact Or.inr (Or.inr (Or.inl ⟨hl, hr⟩))
    · have eb : r.b = X.a := by rw [rb, max_eq_left (zo.trans hc.le)]
      rcases hl with hl | hl
      · left; rw [eb, hl]; linarith
      · rcases hr with hr | hr
        · rcases oX.2.eq_or_lt with he | hne
          · right; left
            have : r.b = x0.b := by rw [eb, he, hr]
            linarith
          · right; right; left
            exact ⟨hl, hr ▸ (hz hne).2 (hc.trans hne)⟩
        · exact Or.inr (Or.inr (Or.inl ⟨hl, hr⟩))

/-- The loop. -/
theorem progress_loop (R : Rnd K) (G : K → Prop) (hG : MidOK R G) (T : K) (hT : interTol < R.dn T) (hT0 : 0 ≤ T)
    (f : K → K) (x0 : Iv K) (σ : K) (step : Iv K → Iv K → Except Err (Iv K))
    (hstep : ∀ X c Z, Ordinary X → Sub X x0 → c ∈ X → step X (degen c) = .ok Z →
      EndSign f σ X Z ∧ G Z.a ∧ G Z.b) (tol : K) :
    ∀ (fuel : ℕ) (X : Iv K) (e : Option K) (m : K), 0 ≤ m → Progress G f x0 σ m X →
      ∀ Y, nlLoop R step tol fuel X e = .ok (some Y) → Progress G f x0 σ (m + fuel * T) Y := by
  have weak : ∀ (m d : K) (X : Iv K), 0 ≤ d → Progress G f x0 σ m X → Progress G f x0 σ (m + d) X := by
    rintro m d X hd ⟨o, h⟩
    refine ⟨o, ?_⟩
    rcases h with h | h | h | h
    · left; linarith
    · right; left; linarith
    · exact Or.inr (Or.inr (Or.inl h))
    · exact Or.inr (Or.inr (Or.inr h))
  intro fuel
  induction fuel with
  | zero => intro X e m _ hX Y h; cases h; exact weak m _ _ (by simp) hX
  | succ fuel ih =>
    intro X e m hm hX Y h
    unfold nlLoop at h
    split_ifs at h
    · split at h
      · cases h
      rename_i Z hZ
      split at h
      · cases h
      rename_i r hr
      have key : Progress G f x0 σ (m + T) r := by
        obtain ⟨o, hX⟩ := hX
        have far : r.a ≤ r.b ∧ X.a - T ≤ r.a ∧ r.b ≤ X.b + T := by
          rcases inter_cases R T hT X Z r hr with ⟨rc, ra, rb, ro⟩ | ⟨rc, rb, ra, ro, rT⟩
          · refine ⟨ro, ?_, ?_⟩
            · rw [ra]; linarith [le_max_left X.a Z.a]
            · rw [rb]; linarith [min_le_left X.b Z.b]
          · have h1 : X.a ≤ r.b := rb ▸ le_max_left X.a Z.a
            have h2 : r.a ≤ X.b := ra ▸ min_le_left X.b Z.b
            exact ⟨ro.le, by linarith, by linarith⟩
        rcases hX with hX | hX | hX | ⟨oX, hs, ga, gb, hl, hr'⟩
        · exact ⟨far.1, Or.inl (by linarith [far.2.2])⟩
        · exact ⟨far.1, Or.inr (Or.inl (by linarith [far.2.1]))⟩
        · exact ⟨far.1, Or.inr (Or.inr (Or.inl hX))⟩
        · obtain ⟨s1, s2⟩ := hstep X _ Z oX hs (hG.mid_mem X ga gb oX.2) hZ
          exact progress_good R G T hT hT0 f x0 σ m hm X Z r oX hs ga gb s2 hl hr' s1 hr
      have := ih r _ (m + T) (by linarith) key Y h
      have e : m + T + (fuel : K) * T = m + ((fuel + 1 : ℕ) : K) * T := by push_cast; ring
      rwa [e] at this
    · cases h
      exact weak m _ _ (mul_nonneg (Nat.cast_nonneg _) hT0) hX

theorem progress_inside (G : K → Prop) (f : K → K) (x0 Z : Iv K) (σ m : K) (hm : 0 ≤ m) (h : Progress G f x0 σ m Z)
    (hi : WellInside Z x0 m) : SignChange f x0 σ := by
  obtain ⟨i1, i2, i3, i4⟩ := hi
  obtain ⟨_, h | h | h | ⟨_, _, _, _, hl, hr⟩⟩ := h
  · exact absurd h (not_le.mpr i3)
  · exact absurd h (not_le.mpr i4)
  · exact h
  · exact ⟨hl.resolve_left i1.ne', hr.resolve_left i2.ne⟩

/-! ### The two steps -/

/-- A Krawczyk step encloses `x - Λ f(x)` for the points `x` of its argument. -/
theorem kraw_newton (R : Rnd K) (G : K → Prop) (hG : MidOK R G) (func J : Iv K → Except Err (Iv K)) (f : K → K)
    (x0 : Iv K) (hf : IsExtension func f x0) (hJ : IsSlopes J f x0) (X Z : Iv K) (c : K) (hX : Ordinary X)
    (hs : Sub X x0) (hc : c ∈ X) (h : krawStep R func J X (degen c) = .ok Z) :
    ∃ L, J X = .ok L ∧ L.mid R ≠ 0 ∧ (∀ x ∈ X, x - R.nr (1 / L.mid R) * f x ∈ Z) ∧ Ordinary Z ∧ (G Z.a ∧ G Z.b) ∧
      Ordinary L ∧ ∀ d ∈ L, ∀ x ∈ X, c - R.nr (1 / L.mid R) * f c + (1 - R.nr (1 / L.mid R) * d) * (x - c) ∈ Z := by
  unfold krawStep at h
  split at h
  · cases h
  rename_i L hL
  split_ifs at h with h0
  dsimp only at h
  split at h
  · cases h
  rename_i Fc hFc
  cases h
  obtain ⟨oL, hd⟩ := hJ X L hX hs hL
  have hcs : Sub (degen c) x0 := fun t ht => by
    have : t = c := le_antisymm ht.2 ht.1
    subst this
    exact hs t hc
  obtain ⟨oF, hF⟩ := hf (degen c) Fc (degen_mem c).2 hcs hFc
  have hFc' := hF c (degen_mem c).1
  set lam := R.nr (1 / L.mid R) with hlam
  obtain ⟨r1, _, r2⟩ := C05_rmul_encloses R lam L oL
  obtain ⟨r3, _, r4⟩ := C05_rmul_encloses R lam Fc oF
  have b2 : Ordinary ((Iv.rmul R lam L).rsub R 1) := by
    refine ⟨r2.1, ?_⟩
    simp only [Iv.rsub]
    exact (R.dn_le _).trans ((sub_le_sub_left r2.2 _).trans (R.le_up _))
  have b4 := (C01_add_sub_ordinary R X (degen c) hX (degen_mem c).2).2
  have gen : ∀ d ∈ L, ∀ x ∈ X, c - lam * f c + (1 - lam * d) * (x - c) ∈
      ((degen c).sub R (Iv.rmul R lam Fc)).add R (((Iv.rmul R lam L).rsub R 1).mul R (X.sub R (degen c))) := by
    intro d hdL x hx
    have b1 : 1 - lam * d ∈ (Iv.rmul R lam L).rsub R 1 :=
      (C05_radd_rsub_enclose R 1 (Iv.rmul R lam L)).2.1 _ ⟨lam * d, r1 _ ⟨d, hdL, rfl⟩, rfl⟩
    have b3 : x - c ∈ X.sub R (degen c) := C01_sub_encloses R X (degen c) _ ⟨x, hx, c, (degen_mem c).1, rfl⟩
    have b5 := C02_mul_encloses R _ _ b2 b4 _ ⟨_, b1, _, b3, rfl⟩
    have b6 := C01_sub_encloses R (degen c) _ _ ⟨c, (degen_mem c).1, lam * f c, r3 _ ⟨f c, hFc', rfl⟩, rfl⟩
    exact C01_add_encloses R _ _ _ ⟨_, b6, _, b5, rfl⟩
  refine ⟨L, hL, h0, fun x hx => ?_, ?_, add_ends R G hG _ _, oL, gen⟩
  · obtain ⟨d, hdL, hd⟩ := hd x hx c hc
    have b7 := gen d hdL x hx
    have e : c - lam * f c + (1 - lam * d) * (x - c) = x - lam * f x := by
      have : f x = f c + d * (x - c) := by linarith
      rw [this]; ring
    rwa [e] at b7
  · exact (C01_add_sub_ordinary R _ _ (C01_add_sub_ordinary R _ _ (degen_mem c).2 r4).2
      (C02_mul_ordinary R _ _ b2 b4)).1

/-- The ends of a Krawczyk step, in the direction of its multiplier. -/
theorem kraw_ends (R : Rnd K) (G : K → Prop) (hG : MidOK R G) (func J : Iv K → Except Err (Iv K)) (f : K → K)
    (x0 : Iv K) (hf : IsExtension func f x0) (hJ : IsSlopes J f x0) (X Z : Iv K) (c : K) (hX : Ordinary X)
    (hs : Sub X x0) (hc : c ∈ X) (h : krawStep R func J X (degen c) = .ok Z) :
    ∃ L, J X = .ok L ∧ L.mid R ≠ 0 ∧ EndSign f (R.nr (1 / L.mid R)) X Z ∧ G Z.a ∧ G Z.b := by
  obtain ⟨L, hL, h0, hz, oZ, gZ, _⟩ := kraw_newton R G hG func J f x0 hf hJ X Z c hX hs hc h
  refine ⟨L, hL, h0, ⟨oZ.2, fun _ => ⟨fun h1 => ?_, fun h1 => ?_⟩⟩, gZ⟩
  · have := (hz X.a ⟨le_refl _, hX.2⟩).1
    linarith
  · have := (hz X.b ⟨hX.2, le_refl _⟩).2
    linarith

theorem nr_sign (R : Rnd K) (t : K) : (0 ≤ t → 0 ≤ R.nr t) ∧ (t ≤ 0 → R.nr t ≤ 0) :=
  ⟨fun h => by have := R.dn_mono h; rw [R.dn_zero] at this; exact this.trans (R.dn_le_nr t),
   fun h => by have := R.up_mono h; rw [R.up_zero] at this; exact (R.nr_le_up t).trans this⟩

/-- All slopes over parts of `x0` have one sign when the enclosure over `x0` excludes zero. -/
theorem slopes_sign (J : Iv K → Except Err (Iv K)) (f : K → K) (x0 L0 : Iv K) (h0 : Ordinary x0)
    (hJ : IsSlopes J f x0) (hL0 : J x0 = .ok L0) (hz : ¬ (0 : K) ∈ L0) :
    ∃ σ : K, (σ = 1 ∨ σ = -1) ∧ ∀ X L, Ordinary X → Sub X x0 → X.a < X.b → J X = .ok L → ¬ (0 : K) ∈ L →
      ∀ d ∈ L, 0 < σ * d := by
  obtain ⟨o0, s0⟩ := hJ x0 L0 h0 (fun _ h => h) hL0
  have common : ∀ X L, Ordinary X → Sub X x0 → X.a < X.b → J X = .ok L → ∃ d, d ∈ L ∧ d ∈ L0 := by
    intro X L oX hs hlt hL
    obtain ⟨_, s⟩ := hJ X L oX hs hL
    obtain ⟨d, hd, e⟩ := s X.b ⟨oX.2, le_refl _⟩ X.a ⟨le_refl _, oX.2⟩
    obtain ⟨d', hd', e'⟩ := s0 X.b (hs _ ⟨oX.2, le_refl _⟩) X.a (hs _ ⟨le_refl _, oX.2⟩)
    have : d = d' := mul_right_cancel₀ (sub_pos.mpr hlt).ne' (e.symm.trans e')
    exact ⟨d, hd, this ▸ hd'⟩
  rcases not_mem_zero_cases o0.2 hz with hp | hn
  · refine ⟨1, Or.inl rfl, fun X L oX hs hlt hL hzL d hd => ?_⟩
    obtain ⟨e, he, he0⟩ := common X L oX hs hlt hL
    rcases not_mem_zero_cases (hJ X L oX hs hL).1.2 hzL with h1 | h1
    · rw [one_mul]; exact h1.trans_le hd.1
    · exact absurd (hp.trans_le (he0.1.trans he.2)) (not_lt.mpr h1.le)
  · refine ⟨-1, Or.inr rfl, fun X L oX hs hlt hL hzL d hd => ?_⟩
    obtain ⟨e, he, he0⟩ := common X L oX hs hlt hL
    rcases not_mem_zero_cases (hJ X L oX hs hL).1.2 hzL with h1 | h1
    · exact absurd (h1.trans_le (he.1.trans he0.2)) (not_lt.mpr hn.le)
    · have := hd.2; linarith

/-- The ends of a Hansen-Sengupta step. -/
theorem hs_ends (R : Rnd K) (G : K → Prop) (hG : MidOK R G) (func J : Iv K → Except Err (Iv K)) (f : K → K)
    (x0 : Iv K) (hf : IsExtension func f x0) (hJ : IsSlopes J f x0) (σ : K)
    (hσ : ∀ X L, Ordinary X → Sub X x0 → X.a < X.b → J X = .ok L → ¬ (0 : K) ∈ L → ∀ d ∈ L, 0 < σ * d)
    (X Z : Iv K) (c : K) (hX : Ordinary X)
    (hs : Sub X x0) (hc : c ∈ X) (h : hsStep R func J X (degen c) = .ok Z) :
    (∃ L, J X = .ok L ∧ ¬ (0 : K) ∈ L) ∧ EndSign f σ X Z ∧ G Z.a ∧ G Z.b := by
  unfold hsStep at h
  split at h
  · cases h
  rename_i L hL
  split_ifs at h with hm
  dsimp only at h
  split at h
  · cases h
  rename_i Fc hFc
  split_ifs at h with hA
  obtain ⟨oL, hd⟩ := hJ X L hX hs hL
  have hcs : Sub (degen c) x0 := fun t ht => by
    have : t = c := le_antisymm ht.2 ht.1
    subst this
    exact hs t hc
  obtain ⟨oF, hF⟩ := hf (degen c) Fc (degen_mem c).2 hcs hFc
  have hFc' := hF c (degen_mem c).1
  set lam := R.nr (1 / L.mid R)
  obtain ⟨r1, _, r2⟩ := C05_rmul_encloses R lam L oL
  obtain ⟨r3, _, r4⟩ := C05_rmul_encloses R (-lam) Fc oF
  have hzL : ¬ (0 : K) ∈ L := fun h0 => by
    have := r1 _ ⟨0, h0, rfl⟩
    rw [mul_zero] at this
    exact hA (containsNum_iff.mpr this)
  cases hd' : (Iv.rmul R (-lam) Fc).div R (Iv.rmul R lam L) with
  | error e => rw [hd'] at h; cases h
  | ok GS =>
    rw [hd'] at h
    cases h
    have pt : ∀ d ∈ L, d ≠ 0 → c - f c / d ∈ (degen c).add R GS ∧ Ordinary GS := by
      intro d hdL hd0
      have g := div_point R _ _ GS r4 r2 hd' (-lam * f c) (lam * d) (-(f c / d)) (r3 _ ⟨f c, hFc', rfl⟩)
        (r1 _ ⟨d, hdL, rfl⟩) (by field_simp)
      have := C01_add_encloses R (degen c) GS _ ⟨c, (degen_mem c).1, _, g.1, rfl⟩
      exact ⟨by rwa [← sub_eq_add_neg] at this, g.2⟩
    have hLa : L.a ∈ L := ⟨le_refl _, oL.2⟩
    have oGS := (pt L.a hLa (fun e => hzL (e ▸ hLa))).2
    refine ⟨⟨L, hL, hzL⟩, ⟨(C01_add_sub_ordinary R _ _ (degen_mem c).2 oGS).1.2, fun hlt => ?_⟩, add_ends R G hG _ _⟩
    have sgn := hσ X L hX hs hlt hL hzL
    refine ⟨fun h1 => ?_, fun h1 => ?_⟩
    · obtain ⟨d, hdL, e⟩ := hd X.a ⟨le_refl _, hX.2⟩ c hc
      have hp := sgn d hdL
      have hd0 : d ≠ 0 := fun e => hzL (e ▸ hdL)
      have h2 : X.a < c - f c / d := h1.trans_le (pt d hdL hd0).1.1
      have h3 : 0 < σ * d * (c - f c / d - X.a) := mul_pos hp (by linarith)
      have h4 : σ * d * (c - f c / d - X.a) = -(σ * f X.a) := by
        have : f X.a = f c + d * (X.a - c) := by linarith
        rw [this]; field_simp; ring
      linarith
    · obtain ⟨d, hdL, e⟩ := hd X.b ⟨hX.2, le_refl _⟩ c hc
      have hp := sgn d hdL
      have hd0 : d ≠ 0 := fun e => hzL (e ▸ hdL)
      have h2 : c - f c / d < X.b := (pt d hdL hd0).1.2.trans_lt h1
      have h3 : 0 < σ * d * (X.b - (c - f c / d)) := mul_pos hp (by linarith)
      have h4 : σ * d * (X.b - (c - f c / d)) = σ * f X.b := by
        have : f X.b = f c + d * (X.b - c) := by linarith
        rw [this]; field_simp; ring
      linarith

/-! ### C148 -/

/-- The first pass of a loop that ends with an interval, and the rest. -/
theorem nlLoop_first (R : Rnd K) (step : Iv K → Iv K → Except Err (Iv K)) (tol : K) (n : ℕ) (x0 Y : Iv K)
    (h : nlLoop R step tol (n + 1) x0 none = .ok (some Y)) : ∃ Z r, step x0 (degen (x0.mid R)) = .ok Z ∧
      intersect R x0 Z = some r ∧ nlLoop R step tol n r (some (dist r x0)) = .ok (some Y) := by
  unfold nlLoop at h
  simp only [nlFar, if_true] at h
  split at h
  · cases h
  rename_i Z hZ
  split at h
  · cases h
  rename_i r hr
  exact ⟨Z, r, hZ, hr, h⟩

theorem unique_of_slopes (J : Iv K → Except Err (Iv K)) (f : K → K) (x0 L : Iv K) (h0 : Ordinary x0)
    (hJ : IsSlopes J f x0) (hL : J x0 = .ok L) (hz : ¬ (0 : K) ∈ L) (x y : K) (hx : x ∈ x0) (hy : y ∈ x0)
    (fx : f x = 0) (fy : f y = 0) : x = y := by
  obtain ⟨_, s⟩ := hJ x0 L h0 (fun _ h => h) hL
  obtain ⟨d, hd, e⟩ := s x hx y hy
  rw [fx, fy, sub_zero] at e
  rcases mul_eq_zero.mp e.symm with e | e
  · exact absurd (e ▸ hd) hz
  · linarith

theorem signChange_mul {f : K → K} {x0 : Iv K} {σ : K} (h : SignChange f x0 σ) : f x0.a * f x0.b < 0 := by
  obtain ⟨h1, h2⟩ := h
  by_contra hc
  have := mul_neg_of_neg_of_pos h1 h2
  have e : σ * f x0.a * (σ * f x0.b) = σ ^ 2 * (f x0.a * f x0.b) := by ring
  rw [e] at this
  exact absurd this (not_lt.mpr (mul_nonneg (sq_nonneg _) (not_lt.mp hc)))

theorem progress_start (G : K → Prop) (f : K → K) (x0 : Iv K) (σ : K) (h0 : Ordinary x0) (ga : G x0.a) (gb : G x0.b) :
    Progress G f x0 σ 0 x0 :=
  ⟨h0.2, Or.inr (Or.inr (Or.inr ⟨h0, fun _ h => h, ga, gb, Or.inl rfl, Or.inl rfl⟩))⟩

/-- C148 (`HansenSengupta`): for every rounding, tolerance and number of passes, a returned interval in the interior of
the start interval (and not within `passes * T` of one of its ends, `T` just above `1e-15`) proves that `f` changes its
sign over the start interval and has at most one zero there. -/
theorem C148_hansen_sengupta (R : Rnd K) (G : K → Prop) (hG : MidOK R G) (T : K) (hT : interTol < R.dn T) (hT0 : 0 ≤ T)
    (func J : Iv K → Except Err (Iv K)) (f : K → K) (x0 : Iv K) (h0 : Ordinary x0) (ga : G x0.a) (gb : G x0.b)
    (hf : IsExtension func f x0) (hJ : IsSlopes J f x0) (maxiter : ℤ) (tol : K) (Z : Iv K)
    (h : hansenSengupta R func J x0 maxiter tol = .ok (some Z)) (hi : WellInside Z x0 (maxiter.toNat * T)) :
    f x0.a * f x0.b < 0 ∧ ∀ x ∈ x0, ∀ y ∈ x0, f x = 0 → f y = 0 → x = y := by
  unfold hansenSengupta at h
  split at h
  · cases h
  split_ifs at h
  have hm : 0 < maxiter.toNat := by
    rcases Nat.eq_zero_or_pos maxiter.toNat with e | e
    · rw [e] at h
      cases h
      exact absurd hi.1 (lt_irrefl _)
    · exact e
  obtain ⟨L, hL, hz⟩ : ∃ L, J x0 = .ok L ∧ ¬ (0 : K) ∈ L := by
    obtain ⟨n, e⟩ : ∃ n, maxiter.toNat = n + 1 := ⟨maxiter.toNat - 1, by omega⟩
    rw [e] at h
    obtain ⟨Z1, r, hs, _, _⟩ := nlLoop_first R _ tol n x0 Z h
    unfold hsStep at hs
    split at hs
    · cases hs
    rename_i L hL
    split_ifs at hs
    dsimp only at hs
    split at hs
    · cases hs
    split_ifs at hs with hA
    refine ⟨L, hL, fun hz => hA ?_⟩
    obtain ⟨r1, _, _⟩ := C05_rmul_encloses R (R.nr (1 / L.mid R)) L (hJ x0 L h0 (fun _ h => h) hL).1
    have := r1 _ ⟨0, hz, rfl⟩
    rw [mul_zero] at this
    exact containsNum_iff.mpr this
  obtain ⟨σ, _, hσ⟩ := slopes_sign J f x0 L h0 hJ hL hz
  refine ⟨?_, fun x hx y hy => unique_of_slopes J f x0 L h0 hJ hL hz x y hx hy⟩
  have := progress_loop R G hG T hT hT0 f x0 σ _
    (fun X c Z oX hs hc hz => (hs_ends R G hG func J f x0 hf hJ σ hσ X Z c oX hs hc hz).2)
    tol _ x0 none 0 (le_refl _) (progress_start G f x0 σ h0 ga gb) Z h
  rw [zero_add] at this
  exact signChange_mul (progress_inside G f x0 Z σ _ (mul_nonneg (Nat.cast_nonneg _) hT0) this hi)

/-- C148 (`Krawczyk`, several passes): the same when no slope enclosure over a part of the start interval contains
zero. -/
theorem C148_krawczyk (R : Rnd K) (G : K → Prop) (hG : MidOK R G) (T : K) (hT : interTol < R.dn T) (hT0 : 0 ≤ T)
    (func J : Iv K → Except Err (Iv K)) (f : K → K) (x0 : Iv K) (h0 : Ordinary x0) (ga : G x0.a) (gb : G x0.b)
    (hf : IsExtension func f x0) (hJ : IsSlopes J f x0)
    (hz : ∀ X L, Ordinary X → Sub X x0 → X.a < X.b → J X = .ok L → ¬ (0 : K) ∈ L) (maxiter : ℤ) (tol : K) (Z : Iv K)
    (h : krawczyk R func J x0 maxiter tol = .ok (some Z)) (hi : WellInside Z x0 ((maxiter + 1).toNat * T)) :
    f x0.a * f x0.b < 0 ∧ ∀ x ∈ x0, ∀ y ∈ x0, f x = 0 → f y = 0 → x = y := by
  unfold krawczyk at h
  split at h
  · cases h
  split_ifs at h
  have hlt : x0.a < x0.b := by
    have hN : 0 ≤ ((maxiter + 1).toNat : K) * T := mul_nonneg (Nat.cast_nonneg _) hT0
    linarith [hi.1, hi.2.2.2]
  obtain ⟨L, hL⟩ : ∃ L, J x0 = .ok L := by
    rcases Nat.eq_zero_or_pos (maxiter + 1).toNat with e | e
    · rw [e] at h
      cases h
      exact absurd hi.1 (lt_irrefl _)
    · obtain ⟨n, e⟩ : ∃ n, (maxiter + 1).toNat = n + 1 := ⟨(maxiter + 1).toNat - 1, by omega⟩
      rw [e] at h
      obtain ⟨Z1, r, hs, _, _⟩ := nlLoop_first R _ tol n x0 Z h
      unfold krawStep at hs
      split at hs
      · cases hs
      rename_i L hL
      exact ⟨L, hL⟩
  have hzL := hz x0 L h0 (fun _ h => h) hlt hL
  obtain ⟨σ, h1, hσ⟩ := slopes_sign J f x0 L h0 hJ hL hzL
  refine ⟨?_, fun x hx y hy => unique_of_slopes J f x0 L h0 hJ hL hzL x y hx hy⟩
  have := progress_loop R G hG T hT hT0 f x0 σ (krawStep R func J) (fun X c Z oX hs hc hst => by
      obtain ⟨LX, hLX, hm0, es, gZ⟩ := kraw_ends R G hG func J f x0 hf hJ X Z c oX hs hc hst
      refine ⟨⟨es.1, fun hlt' => ?_⟩, gZ⟩
      have sg := hσ X LX oX hs hlt' hLX (hz X LX oX hs hlt' hLX)
      have oL := (hJ X LX oX hs hLX).1
      have sa := sg LX.a ⟨le_refl _, oL.2⟩
      have sb := sg LX.b ⟨oL.2, le_refl _⟩
      obtain ⟨e1, e2⟩ := es.2 hlt'
      set lam := R.nr (1 / LX.mid R) with hlam
      rcases h1 with rfl | rfl
      · have hl : 0 ≤ lam := (nr_sign R _).1 (one_div_nonneg.mpr ((nr_sign R _).1
          (mul_nonneg (by norm_num) ((nr_sign R _).1 (by linarith)))))
        refine ⟨fun h => ?_, fun h => ?_⟩
        · rw [one_mul]; by_contra hc; exact absurd (e1 h) (not_lt.mpr (mul_nonneg hl (not_lt.mp hc)))
        · rw [one_mul]; by_contra hc
          exact absurd (e2 h) (not_lt.mpr (mul_nonpos_of_nonneg_of_nonpos hl (not_lt.mp hc)))
      · have hl : lam ≤ 0 := (nr_sign R _).2 (one_div_nonpos.mpr ((nr_sign R _).2
          (mul_nonpos_of_nonneg_of_nonpos (by norm_num) ((nr_sign R _).2 (by linarith)))))
        refine ⟨fun h => ?_, fun h => ?_⟩
        · by_contra hc
          exact absurd (e1 h) (not_lt.mpr (mul_nonneg_of_nonpos_of_nonpos hl (by linarith [not_lt.mp hc])))
        · by_contra hc
          exact absurd (e2 h) (not_lt.mpr (mul_nonpos_of_nonpos_of_nonneg hl (by linarith [not_lt.mp hc]))))
    tol _ x0 none 0 (le_refl _) (progress_start G f x0 σ h0 ga gb) Z h
  rw [zero_add] at this
  exact signChange_mul (progress_inside G f x0 Z σ _ (mul_nonneg (Nat.cast_nonneg _) hT0) this hi)

/-- C148 (`Krawczyk`, one pass): without any condition on the slopes, a result of `Krawczyk(…, maxiter=0)` in the
interior of the start interval proves a change of sign and that there is at most one zero. -/
theorem C148_krawczyk_once (R : Rnd K) (G : K → Prop) (hG : MidOK R G) (T : K) (hT : interTol < R.dn T) (hT0 : 0 ≤ T)
    (func J : Iv K → Except Err (Iv K)) (f : K → K) (x0 : Iv K) (h0 : Ordinary x0) (ga : G x0.a) (gb : G x0.b)
    (hf : IsExtension func f x0) (hJ : IsSlopes J f x0) (tol : K) (Z : Iv K)
    (h : krawczyk R func J x0 0 tol = .ok (some Z)) (hi : WellInside Z x0 T) :
    f x0.a * f x0.b < 0 ∧ ∀ x ∈ x0, ∀ y ∈ x0, f x = 0 → f y = 0 → x = y := by
  unfold krawczyk at h
  split at h
  · cases h
  split_ifs at h
  obtain ⟨Z1, r, hs, hr, hn⟩ := nlLoop_first R _ tol 0 x0 Z h
  cases hn
  obtain ⟨L, hL, hm0, hz, oZ, gZ, oL, gen⟩ := kraw_newton R G hG func J f x0 hf hJ x0 Z1 _ h0 (fun _ h => h)
    (hG.mid_mem x0 ga gb h0.2) hs
  obtain ⟨i1, i2, i3, i4⟩ := hi
  rcases inter_cases R T hT x0 Z1 Z hr with ⟨rc, ra, rb, ro⟩ | ⟨rc, rb, ra, ro, rT⟩
  · have ha : x0.a < Z1.a := by
      rcases lt_max_iff.mp (ra ▸ i1) with h | h
      · exact absurd h (lt_irrefl _)
      · exact h
    have hb : Z1.b < x0.b := by
      rcases min_lt_iff.mp (rb ▸ i2) with h | h
      · exact absurd h (lt_irrefl _)
      · exact h
    have m1 : x0.a ∈ x0 := ⟨le_refl _, h0.2⟩
    have m2 : x0.b ∈ x0 := ⟨h0.2, le_refl _⟩
    refine ⟨signChange_mul (σ := R.nr (1 / L.mid R)) ⟨?_, ?_⟩, fun x hx y hy =>
      unique_of_slopes J f x0 L h0 hJ hL (fun hzL => ?_) x y hx hy⟩
    · linarith [(hz x0.a m1).1]
    · linarith [(hz x0.b m2).2]
    · have g1 := (gen 0 hzL x0.a m1).1
      have g2 := (gen 0 hzL x0.b m2).2
      rw [mul_zero, sub_zero, one_mul] at g1 g2
      linarith
  · -- disjoint operands leave an end of `x0`
    exfalso
    rcases le_or_gt x0.b Z1.b with hc | hc
    · rw [min_eq_left hc] at ra; linarith
    · rw [min_eq_right hc.le] at ra
      have := oZ.2
      rcases le_or_gt Z1.a x0.a with hd | hd
      · rw [max_eq_left hd] at rb; linarith
      · rw [max_eq_right hd.le] at rb; linarith

/-- Slope enclosures make the function continuous. -/
theorem slopes_continuous (J : Iv ℝ → Except Err (Iv ℝ)) (f : ℝ → ℝ) (x0 L : Iv ℝ) (h0 : Ordinary x0)
    (hJ : IsSlopes J f x0) (hL : J x0 = .ok L) : ContinuousOn f (Set.Icc x0.a x0.b) := by
  obtain ⟨_, s⟩ := hJ x0 L h0 (fun _ h => h) hL
  rw [Metric.continuousOn_iff]
  intro b hb ε hε
  have hM : 0 < |L.a| + |L.b| + 1 := by positivity
  refine ⟨ε / (|L.a| + |L.b| + 1), div_pos hε hM, fun a ha hd => ?_⟩
  obtain ⟨d, hd', e⟩ := s a ⟨ha.1, ha.2⟩ b ⟨hb.1, hb.2⟩
  rw [Real.dist_eq] at *
  rw [e, abs_mul]
  have h1 : |d| ≤ |L.a| + |L.b| + 1 := by
    rw [abs_le]
    constructor
    · linarith [hd'.1, neg_abs_le L.a, abs_nonneg L.b]
    · linarith [hd'.2, le_abs_self L.b, abs_nonneg L.a]
  calc |d| * |a - b| ≤ (|L.a| + |L.b| + 1) * |a - b| := mul_le_mul_of_nonneg_right h1 (abs_nonneg _)
    _ < (|L.a| + |L.b| + 1) * (ε / (|L.a| + |L.b| + 1)) := mul_lt_mul_of_pos_left hd hM
    _ = ε := by field_simp

/-- A continuous function with a change of sign has a zero. -/
theorem zero_of_signs (F : ℝ → ℝ) (a b : ℝ) (hab : a ≤ b) (hc : ContinuousOn F (Set.Icc a b)) (h : F a * F b < 0) :
    ∃ z, a < z ∧ z < b ∧ F z = 0 := by
  rcases mul_neg_iff.mp h with ⟨h1, h2⟩ | ⟨h1, h2⟩
  · obtain ⟨z, hz, e⟩ := intermediate_value_Ioo' hab hc ⟨h2, h1⟩
    exact ⟨z, hz.1, hz.2, e⟩
  · obtain ⟨z, hz, e⟩ := intermediate_value_Ioo hab hc ⟨h1, h2⟩
    exact ⟨z, hz.1, hz.2, e⟩

/-- C148: over the reals, `HansenSengupta` returning an interval well inside the start interval proves that there is
exactly one zero; it lies in the returned interval. -/
theorem C148_zero (R : Rnd ℝ) (G : ℝ → Prop) (hG : MidOK R G) (T : ℝ) (hT : interTol < R.dn T) (hT0 : 0 ≤ T)
    (func J : Iv ℝ → Except Err (Iv ℝ)) (f : ℝ → ℝ) (x0 : Iv ℝ) (h0 : Ordinary x0) (ga : G x0.a) (gb : G x0.b)
    (hf : IsExtension func f x0) (hJ : IsSlopes J f x0) (hJ0 : ∃ L, J x0 = .ok L) (maxiter : ℤ) (tol : ℝ) (Z : Iv ℝ)
    (h : (hansenSengupta R func J x0 maxiter tol = .ok (some Z) ∧ WellInside Z x0 (maxiter.toNat * T)) ∨
      (krawczyk R func J x0 0 tol = .ok (some Z) ∧ WellInside Z x0 T)) :
    ∃ z, z ∈ x0 ∧ f z = 0 ∧ z ∈ Z ∧ ∀ y ∈ x0, f y = 0 → y = z := by
  obtain ⟨L, hL⟩ := hJ0
  have key : f x0.a * f x0.b < 0 ∧ ∀ x ∈ x0, ∀ y ∈ x0, f x = 0 → f y = 0 → x = y := by
    rcases h with ⟨h, hi⟩ | ⟨h, hi⟩
    · exact C148_hansen_sengupta R G hG T hT hT0 func J f x0 h0 ga gb hf hJ maxiter tol Z h hi
    · exact C148_krawczyk_once R G hG T hT hT0 func J f x0 h0 ga gb hf hJ tol Z h hi
  obtain ⟨z, z1, z2, hz⟩ := zero_of_signs f x0.a x0.b h0.2 (slopes_continuous J f x0 L h0 hJ hL) key.1
  have hzx : z ∈ x0 := ⟨z1.le, z2.le⟩
  refine ⟨z, hzx, hz, ?_, fun y hy fy => key.2 y hy z hzx fy hz⟩
  rcases h with ⟨h, _⟩ | ⟨h, _⟩
  · obtain ⟨Z', e, hm, _⟩ := (C40_hansen_sengupta_partial R G hG func J f x0 h0 ga gb hf hJ maxiter tol z hzx hz).1 _ h
    cases e; exact hm
  · obtain ⟨Z', e, hm, _⟩ := (C39_krawczyk R G hG func J f x0 h0 ga gb hf hJ 0 tol z hzx hz).1 _ h
    cases e; exact hm

/-- C148 for rational (for instance double) endpoints and a real function: the sign change gives a real zero. -/
theorem C148_zero_rat (R : Rnd ℚ) (G : ℚ → Prop) (hG : MidOK R G) (T : ℚ) (hT : interTol < R.dn T) (hT0 : 0 ≤ T)
    (func J : Iv ℚ → Except Err (Iv ℚ)) (f : ℚ → ℚ) (F : ℝ → ℝ) (hF : ∀ q : ℚ, F q = f q) (x0 : Iv ℚ)
    (h0 : Ordinary x0) (ga : G x0.a) (gb : G x0.b) (hc : ContinuousOn F (Set.Icc (x0.a : ℝ) x0.b))
    (hf : IsExtension func f x0) (hJ : IsSlopes J f x0) (maxiter : ℤ) (tol : ℚ) (Z : Iv ℚ)
    (h : hansenSengupta R func J x0 maxiter tol = .ok (some Z)) (hi : WellInside Z x0 (maxiter.toNat * T)) :
    ∃ z : ℝ, x0.a < z ∧ z < x0.b ∧ F z = 0 := by
  have key := (C148_hansen_sengupta R G hG T hT hT0 func J f x0 h0 ga gb hf hJ maxiter tol Z h hi).1
  refine zero_of_signs F _ _ (by exact_mod_cast h0.2) hc ?_
  rw [hF, hF]
  exact_mod_cast key

/-! ### Examples -/

/-- The hypotheses hold for `x² - 9/4` on `[1, 3]` after two passes of `HansenSengupta`, and after one pass of `Krawczyk`
on `[5/4, 7/4]`. -/
example : (∃ Z, hansenSengupta Rnd.exact exFunc exJ ⟨.classical, 1, 3⟩ 2 (1 / 100) = .ok (some Z) ∧
      WellInside Z ⟨.classical, 1, 3⟩ (2 * (1 / 1000)) ∧ Z.a = 61/41 ∧ Z.b = 247/162) ∧
    (interTol : ℚ) < (Rnd.exact : Rnd ℚ).dn (1 / 1000) ∧
    (∃ Z, krawczyk Rnd.exact exFunc exJ ⟨.classical, 5/4, 7/4⟩ 0 (1 / 100) = .ok (some Z) ∧
      WellInside Z ⟨.classical, 5/4, 7/4⟩ (1 / 1000)) ∧
    (interTol : ℚ) < Rnd.b64.dn (1 / 2 ^ 49) :=
  ⟨⟨⟨.classical, 61/41, 247/162⟩, by decide +kernel, by unfold WellInside; norm_num, rfl, rfl⟩, by decide +kernel,
    ⟨⟨.classical, 35/24, 37/24⟩, by decide +kernel, by unfold WellInside; norm_num⟩, by decide +kernel⟩

/-- The constant function `-1` with an extension that is exact at points only, -/
def flatFunc (X : Iv ℚ) : Except Err (Iv ℚ) :=
  .ok (if X.a = X.b then ⟨.classical, -1, -1⟩ else ⟨.classical, -1, 1⟩)
/-- and wide enclosures of its slope `0`, different for different intervals. -/
def flatJ (X : Iv ℚ) : Except Err (Iv ℚ) := .ok (if X.a < 0 then ⟨.classical, -1, 3⟩ else ⟨.classical, -6, 2⟩)

/-- C148 (the conditions are needed): after two passes of `Krawczyk` with slope enclosures containing zero a result well
inside the start interval proves nothing.  The function is the constant `-1`; the multipliers of the two passes have
different signs, each pass cuts off one end. -/
theorem C148_two_passes : ∃ (func J : Iv ℚ → Except Err (Iv ℚ)) (f : ℚ → ℚ) (x0 Z : Iv ℚ), Ordinary x0 ∧
    IsExtension func f x0 ∧ IsSlopes J f x0 ∧ krawczyk Rnd.exact func J x0 1 0 = .ok (some Z) ∧
    WellInside Z x0 (1 / 10) ∧ ∀ x, f x < 0 := by
  refine ⟨flatFunc, flatJ, fun _ => -1, ⟨.classical, -1/2, 1/2⟩, ⟨.classical, 0, 1/4⟩, ⟨rfl, by norm_num⟩, ?_, ?_,
    by decide +kernel, by unfold WellInside; norm_num, fun _ => by norm_num⟩
  · intro X F oX _ h
    cases h
    split_ifs <;> refine ⟨⟨rfl, by norm_num⟩, fun x _ => ?_⟩ <;> rw [Iv.mem_def] <;> norm_num
  · intro X L oX _ h
    cases h
    split_ifs <;> refine ⟨⟨rfl, by norm_num⟩, fun x _ c _ => ⟨0, ?_, by ring⟩⟩ <;> rw [Iv.mem_def] <;> norm_num

end IntvalPy
