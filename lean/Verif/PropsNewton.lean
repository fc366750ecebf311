import Verif.PropsNonlinear
import Verif.PropsGSConv
import Mathlib.Tactic.FieldSimp
import Mathlib.Tactic.Linarith
import Mathlib.Tactic.NormNum

/-!
# How fast Krawczyk and HansenSengupta converge in one variable (C129)
-/

set_option autoImplicit false
set_option linter.unusedSectionVars false

namespace IntvalPy
open Spec

variable {K : Type*} [Field K] [LinearOrder K] [IsStrictOrderedRing K]

/-- One step keeps the zero `x` and leaves at most the part `q w` of an interval of width `w`. -/
def Shrinks (step : Iv K → Iv K → Except Err (Iv K)) (x : K) (x0 : Iv K) (q : K → K) : Prop :=
  ∀ X, Ordinary X → Sub X x0 → x ∈ X → ∃ Z, step X (degen (X.mid Rnd.exact)) = .ok Z ∧ x ∈ Z ∧
    min X.b Z.b - max X.a Z.a ≤ q (X.b - X.a)

/-- One pass of the loop. -/
theorem nlPass {step : Iv K → Iv K → Except Err (Iv K)} {x : K} {x0 : Iv K} {q : K → K}
    (hs : Shrinks step x x0 q) {X : Iv K} (hX : Ordinary X) (hsub : Sub X x0) (hx : x ∈ X) :
    ∃ Z Y, step X (degen (X.mid Rnd.exact)) = .ok Z ∧ intersect Rnd.exact X Z = some Y ∧ Ordinary Y ∧ Sub Y X ∧
      x ∈ Y ∧ Y.b - Y.a ≤ q (X.b - X.a) := by
  obtain ⟨Z, h1, h2, h3⟩ := hs X hX hsub hx
  obtain ⟨Y, hY, oY, xY⟩ := (C23_intersection_partial Rnd.exact X Z).1 x hx h2
  have e := intersect_common hx h2 hY
  refine ⟨Z, Y, h1, hY, oY, fun t ht => ?_, xY, by rw [e]; exact h3⟩
  exact (((C23_intersection_partial Rnd.exact X Z).2.1 Y hY ⟨x, hx, h2⟩ t).mp ht).1

theorem sub_ends {X Y : Iv K} (hY : Ordinary Y) (h : Sub Y X) : X.a ≤ Y.a ∧ Y.b ≤ X.b :=
  ⟨(h Y.a ⟨le_refl _, hY.2⟩).1, (h Y.b ⟨hY.2, le_refl _⟩).2⟩

theorem dist_ends {X Y : Iv K} (hY : Ordinary Y) (h : Sub Y X) :
    dist Y X ≤ X.b - X.a ∧ X.b - X.a ≤ Y.b - Y.a + 2 * dist Y X ∧ 0 ≤ dist Y X := by
  obtain ⟨h1, h2⟩ := sub_ends hY h
  have h3 := hY.2
  have e1 : |Y.a - X.a| = Y.a - X.a := abs_of_nonneg (by linarith)
  have e2 : |Y.b - X.b| = X.b - Y.b := by rw [abs_of_nonpos (by linarith)]; ring
  unfold dist cheb
  rw [e1, e2]
  refine ⟨max_le (by linarith) (by linarith), ?_, le_max_of_le_left (by linarith)⟩
  linarith [le_max_left (Y.a - X.a) (X.b - Y.b), le_max_right (Y.a - X.a) (X.b - Y.b)]

/-- With a factor `θ < 1` the loop stops because of the tolerance after a known number of passes, and the result is
then narrow. -/
theorem nlLoop_linear {step : Iv K → Iv K → Except Err (Iv K)} {x : K} {x0 : Iv K} (θ tol : K) (h0 : 0 ≤ θ)
    (h1 : θ < 1) (hs : Shrinks step x x0 (fun w => θ * w)) :
    ∀ (m fuel : ℕ) (P X : Iv K) (w : K), Ordinary X → Sub X P → Sub X x0 → x ∈ X →
      X.b - X.a ≤ θ * (P.b - P.a) → P.b - P.a ≤ w → θ ^ m * w ≤ tol → m ≤ fuel →
      ∃ Z, nlLoop Rnd.exact step tol fuel X (some (dist X P)) = .ok (some Z) ∧
        nlLoop Rnd.exact step tol m X (some (dist X P)) = .ok (some Z) ∧
        Ordinary Z ∧ Sub Z x0 ∧ x ∈ Z ∧ Z.b - Z.a ≤ 2 * θ * tol / (1 - θ) := by
  have done : ∀ (P X : Iv K), Ordinary X → Sub X P → X.b - X.a ≤ θ * (P.b - P.a) → dist X P ≤ tol →
      X.b - X.a ≤ 2 * θ * tol / (1 - θ) := by
    intro P X hX hsub hw hd
    obtain ⟨_, d2, _⟩ := dist_ends hX hsub
    rw [le_div_iff₀ (by linarith)]
    have : θ * (P.b - P.a) ≤ θ * (X.b - X.a + 2 * tol) := mul_le_mul_of_nonneg_left (by linarith) h0
    linarith
  intro m
  induction m with
  | zero =>
    intro fuel P X w hX hsP hs0 hx hw hP ht _
    have hd : dist X P ≤ tol := (dist_ends hX hsP).1.trans (hP.trans (by simpa using ht))
    have hf : nlFar tol (some (dist X P)) = false := by simp [nlFar, hd]
    refine ⟨X, ?_, rfl, hX, hs0, hx, done P X hX hsP hw hd⟩
    cases fuel with
    | zero => rfl
    | succ f => simp [nlLoop, hf]
  | succ m ih =>
    intro fuel P X w hX hsP hs0 hx hw hP ht hm
    obtain ⟨f, rfl⟩ : ∃ f, fuel = f + 1 := ⟨fuel - 1, by omega⟩
    by_cases hd : tol < dist X P
    · have hf : nlFar tol (some (dist X P)) = true := by simp [nlFar, hd]
      obtain ⟨Z, Y, p1, p2, p3, p4, p5, p6⟩ := nlPass hs hX hs0 hx
      obtain ⟨Q, q1, q2, q3⟩ := ih f X Y (θ * w) p3 p4 (fun t ht => hs0 t (p4 t ht)) p5 p6
        (hw.trans (mul_le_mul_of_nonneg_left hP h0)) (by rw [← mul_assoc, ← pow_succ]; exact ht) (by omega)
      refine ⟨Q, ?_, ?_, q3⟩
      · simp only [nlLoop, hf, if_true, p1, p2]; exact q1
      · simp only [nlLoop, hf, if_true, p1, p2]; exact q2
    · have hd' := not_lt.mp hd
      have hf : nlFar tol (some (dist X P)) = false := by simp [nlFar, hd']
      exact ⟨X, by simp [nlLoop, hf], by simp [nlLoop, hf], hX, hs0, hx, done P X hX hsP hw hd'⟩

theorem nlLoop_start {step : Iv K → Iv K → Except Err (Iv K)} {x : K} {x0 : Iv K} (θ tol : K) (h0 : 0 ≤ θ)
    (h1 : θ < 1) (hs : Shrinks step x x0 (fun w => θ * w)) (hx0 : Ordinary x0) (hx : x ∈ x0) (N fuel : ℕ)
    (ht : θ ^ N * (x0.b - x0.a) ≤ tol) (hf : N + 1 ≤ fuel) :
    ∃ Z, nlLoop Rnd.exact step tol fuel x0 none = .ok (some Z) ∧
      nlLoop Rnd.exact step tol (N + 1) x0 none = .ok (some Z) ∧
      Ordinary Z ∧ Sub Z x0 ∧ x ∈ Z ∧ Z.b - Z.a ≤ 2 * θ * tol / (1 - θ) := by
  obtain ⟨f, rfl⟩ : ∃ f, fuel = f + 1 := ⟨fuel - 1, by omega⟩
  have hf' : nlFar tol none = true := rfl
  obtain ⟨Z, Y, p1, p2, p3, p4, p5, p6⟩ := nlPass hs hx0 (fun _ h => h) hx
  obtain ⟨Q, q1, q2, q3⟩ := nlLoop_linear θ tol h0 h1 hs N f x0 Y (x0.b - x0.a) p3 p4 p4 p5 p6 (le_refl _) ht
    (by omega)
  exact ⟨Q, by simp only [nlLoop, hf', if_true, p1, p2]; exact q1,
    by simp only [nlLoop, hf', if_true, p1, p2]; exact q2, q3⟩

/-- With a quadratic estimate of the width every pass squares it. -/
theorem nlLoop_quadratic {step : Iv K → Iv K → Except Err (Iv K)} {x : K} {x0 : Iv K} (C tol : K) (hC : 0 ≤ C)
    (htol : tol < 0) (hs : Shrinks step x x0 (fun w => C * w * w)) :
    ∀ (N : ℕ) (X : Iv K) (e : Option K), (∀ d, e = some d → 0 ≤ d) → Ordinary X → Sub X x0 → x ∈ X →
      ∃ Z, nlLoop Rnd.exact step tol N X e = .ok (some Z) ∧ Ordinary Z ∧ Sub Z x0 ∧ x ∈ Z ∧
        C * (Z.b - Z.a) ≤ (C * (X.b - X.a)) ^ 2 ^ N := by
  intro N
  induction N with
  | zero =>
    intro X e _ hX hs0 hx
    exact ⟨X, rfl, hX, hs0, hx, by simp⟩
  | succ N ih =>
    intro X e he hX hs0 hx
    have hf : nlFar tol e = true := by
      cases e with
      | none => rfl
      | some d => simp [nlFar, htol.trans_le (he d rfl)]
    obtain ⟨Z, Y, p1, p2, p3, p4, p5, p6⟩ := nlPass hs hX hs0 hx
    obtain ⟨Q, q1, q2, q3, q4, q5⟩ := ih Y (some (dist Y X))
      (fun d hd => by cases hd; exact (dist_ends p3 p4).2.2) p3 (fun t ht => hs0 t (p4 t ht)) p5
    refine ⟨Q, by simp only [nlLoop, hf, if_true, p1, p2]; exact q1, q2, q3, q4, q5.trans ?_⟩
    have h1 : 0 ≤ C * (Y.b - Y.a) := mul_nonneg hC (sub_nonneg.mpr p3.2)
    have h2 : C * (Y.b - Y.a) ≤ (C * (X.b - X.a)) ^ 2 := by
      have := mul_le_mul_of_nonneg_left p6 hC
      linarith [show C * (C * (X.b - X.a) * (X.b - X.a)) = (C * (X.b - X.a)) ^ 2 by ring]
    calc (C * (Y.b - Y.a)) ^ 2 ^ N ≤ ((C * (X.b - X.a)) ^ 2) ^ 2 ^ N := pow_le_pow_left₀ h1 h2 _
      _ = (C * (X.b - X.a)) ^ 2 ^ (N + 1) := by rw [← pow_mul, ← pow_succ']

/-- The slopes on `X`, scaled by the reciprocal of their midpoint, lie in `[1 - r, 1 + r]`. -/
theorem scaled_slopes {L : Iv K} (oL : Ordinary L) (hm : L.a + L.b ≠ 0) :
    let r := (L.b - L.a) / |L.a + L.b|
    Iv.rmul Rnd.exact (1 / L.mid Rnd.exact) L = ⟨.classical, 1 - r, 1 + r⟩ ∧ 0 ≤ r := by
  obtain ⟨c, a, b⟩ := L
  obtain ⟨h1, h2⟩ := oL
  simp only at h1 h2 hm
  subst h1
  intro r
  have hr : 0 ≤ r := div_nonneg (by simpa using h2) (abs_nonneg _)
  refine ⟨?_, hr⟩
  have hmid : (1 : K) / Iv.mid Rnd.exact ⟨.classical, a, b⟩ = 2 / (a + b) := by
    simp only [Iv.mid, Rnd.exact_nr, id]
    have : b + a ≠ 0 := by rw [add_comm]; exact hm
    field_simp
    ring
  simp only [Iv.rmul, hmid, Rnd.exact_dn, Rnd.exact_up, id]
  rcases lt_or_gt_of_ne hm with hneg | hpos
  · have er : r = -((b - a) / (a + b)) := by
      show (b - a) / |a + b| = _
      rw [abs_of_neg hneg, div_neg]
    have e1 : 2 / (a + b) * a = 1 + r := by rw [er]; field_simp; ring
    have e2 : 2 / (a + b) * b = 1 - r := by rw [er]; field_simp; ring
    rw [e1, e2, min_eq_right (by linarith), max_eq_left (by linarith)]
  · have er : r = (b - a) / (a + b) := by
      show (b - a) / |a + b| = _
      rw [abs_of_pos hpos]
    have e1 : 2 / (a + b) * a = 1 - r := by rw [er]; field_simp; ring
    have e2 : 2 / (a + b) * b = 1 + r := by rw [er]; field_simp; ring
    rw [e1, e2, min_eq_left (by linarith), max_eq_right (by linarith)]

theorem mid_ne {L : Iv K} (hm : L.a + L.b ≠ 0) : L.mid Rnd.exact ≠ 0 := by
  simp only [Iv.mid, Rnd.exact_nr, id]
  intro h
  apply hm
  linarith

theorem mid_in {X : Iv K} (hX : Ordinary X) : X.mid Rnd.exact ∈ X :=
  midOK_exact.mid_mem X trivial trivial hX.2

theorem sub_mid {X : Iv K} (hX : Ordinary X) :
    X.sub Rnd.exact (degen (X.mid Rnd.exact)) = ⟨.classical, -((X.b - X.a) / 2), (X.b - X.a) / 2⟩ := by
  obtain ⟨c, a, b⟩ := X
  obtain ⟨h1, h2⟩ := hX
  simp only at h1
  subst h1
  simp only [Iv.sub, degen, Iv.mid, Rnd.exact_nr, Rnd.exact_dn, Rnd.exact_up, id]
  congr 1 <;> ring

/-- What the callers have to provide: values at points are exact, and on every part of the start interval the slopes
are defined and do not change sign. -/
structure NewtonData (func J : Iv K → Except Err (Iv K)) (f : K → K) (x0 : Iv K) : Prop where
  ord : Ordinary x0
  ext : IsExtension func f x0
  slopes : IsSlopes J f x0
  total : ∃ F, func x0 = .ok F
  point : ∀ c ∈ x0, func (degen c) = .ok (degen (f c))
  jtotal : ∀ X, Ordinary X → Sub X x0 → ∃ L, J X = .ok L ∧ L.a + L.b ≠ 0

/-- A Krawczyk step leaves at most `wid L / |L.a + L.b|` of the width. -/
theorem kraw_shrinks {func J : Iv K → Except Err (Iv K)} {f : K → K} {x0 : Iv K} (h : NewtonData func J f x0) (x : K)
    (hx : f x = 0) (q : K → K)
    (hq : ∀ X L, Ordinary X → Sub X x0 → J X = .ok L → (L.b - L.a) / |L.a + L.b| * (X.b - X.a) ≤ q (X.b - X.a)) :
    Shrinks (krawStep Rnd.exact func J) x x0 q := by
  intro X hX hs hxX
  obtain ⟨L, hL, hm⟩ := h.jtotal X hX hs
  have oL := (h.slopes X L hX hs hL).1
  have hc : X.mid Rnd.exact ∈ X := mid_in hX
  have hF := h.point _ (hs _ hc)
  obtain ⟨e1, hr⟩ := scaled_slopes oL hm
  have hstep : krawStep Rnd.exact func J X (degen (X.mid Rnd.exact))
      = .ok (((degen (X.mid Rnd.exact)).sub Rnd.exact
          (Iv.rmul Rnd.exact (1 / L.mid Rnd.exact) (degen (f (X.mid Rnd.exact))))).add Rnd.exact
        (((Iv.rmul Rnd.exact (1 / L.mid Rnd.exact) L).rsub Rnd.exact 1).mul Rnd.exact
          (X.sub Rnd.exact (degen (X.mid Rnd.exact))))) := by
    unfold krawStep
    rw [hL]
    dsimp only
    rw [if_neg (mid_ne hm), hF]
    rfl
  refine ⟨_, hstep, (krawStep_keeps Rnd.exact (fun _ => True) midOK_exact func J f x0 h.ext h.slopes x hx X _ _ hX hs
    hxX hc hstep).1, ?_⟩
  set r := (L.b - L.a) / |L.a + L.b| with hrdef
  rw [e1, sub_mid hX]
  set c := X.mid Rnd.exact
  set w := (X.b - X.a) / 2 with hw
  have hw0 : 0 ≤ w := by rw [hw]; linarith [hX.2]
  have hB : Iv.rsub Rnd.exact 1 ⟨.classical, 1 - r, 1 + r⟩ = ⟨.classical, -r, r⟩ := by
    simp only [Iv.rsub, Rnd.exact_dn, Rnd.exact_up, id]
    congr 1 <;> ring
  rw [hB]
  have hmul : Iv.mul Rnd.exact ⟨.classical, -r, r⟩ ⟨.classical, -w, w⟩ = ⟨.classical, -(r * w), r * w⟩ := by
    have hrw : 0 ≤ r * w := mul_nonneg hr hw0
    simp only [Iv.mul, Iv.mulCC, Rnd.exact_dn, Rnd.exact_up, id]
    rw [neg_mul_neg, neg_mul, mul_neg]
    congr 1
    · rw [min_eq_right (by linarith : -(r * w) ≤ r * w), min_self, min_eq_left (by linarith)]
    · rw [max_eq_left (by linarith : -(r * w) ≤ r * w), max_eq_left (by linarith : -(r * w) ≤ r * w), max_self]
  rw [hmul]
  have hq' := hq X L hX hs hL
  have hwid : ∀ (s : K), min X.b (s + r * w) - max X.a (s + -(r * w)) ≤ q (X.b - X.a) := by
    intro s
    have := min_le_right X.b (s + r * w)
    have := le_max_right X.a (s + -(r * w))
    have e : r * (X.b - X.a) = 2 * (r * w) := by rw [hw]; ring
    linarith
  have := hwid (c - 1 / L.mid Rnd.exact * f c)
  simpa [Iv.add, Iv.sub, degen, Iv.rmul] using this

/-- A Hansen-Sengupta (in one variable: Newton) step leaves at most half of the width, and at most `r / (1 - r)` of
it, where `r = wid L / |L.a + L.b| < 1`. -/
theorem hs_shrinks {func J : Iv K → Except Err (Iv K)} {f : K → K} {x0 : Iv K} (h : NewtonData func J f x0) (x : K)
    (hx : f x = 0) (q : K → K)
    (h1 : ∀ X L, Ordinary X → Sub X x0 → J X = .ok L → L.b - L.a < |L.a + L.b|)
    (hq : ∀ X L, Ordinary X → Sub X x0 → J X = .ok L → (X.b - X.a) / 2 ≤ q (X.b - X.a) ∨
      (L.b - L.a) / (|L.a + L.b| - (L.b - L.a)) * (X.b - X.a) ≤ q (X.b - X.a)) :
    Shrinks (hsStep Rnd.exact func J) x x0 q := by
  intro X hX hs hxX
  obtain ⟨L, hL, hm⟩ := h.jtotal X hX hs
  have oL := (h.slopes X L hX hs hL).1
  have hc : X.mid Rnd.exact ∈ X := mid_in hX
  have hF := h.point _ (hs _ hc)
  obtain ⟨e1, hr⟩ := scaled_slopes oL hm
  have hlt := h1 X L hX hs hL
  have hq' := hq X L hX hs hL
  have habs : 0 < |L.a + L.b| := abs_pos.mpr hm
  have hr1 : (L.b - L.a) / |L.a + L.b| < 1 := (div_lt_one habs).mpr hlt
  have hrq : (L.b - L.a) / (|L.a + L.b| - (L.b - L.a))
      = (L.b - L.a) / |L.a + L.b| / (1 - (L.b - L.a) / |L.a + L.b|) := by
    have : |L.a + L.b| ≠ 0 := habs.ne'
    have h2 : |L.a + L.b| - (L.b - L.a) ≠ 0 := by linarith
    have h3 : 1 - (L.b - L.a) / |L.a + L.b| ≠ 0 := by linarith
    field_simp
  rw [hrq] at hq'
  obtain ⟨d, hdL, hd⟩ := (h.slopes X L hX hs hL).2 x hxX _ hc
  have hsc : Iv.rmul Rnd.exact (1 / L.mid Rnd.exact) L
      = ⟨.classical, 1 - (L.b - L.a) / |L.a + L.b|, 1 + (L.b - L.a) / |L.a + L.b|⟩ := e1
  have hlam := (C05_rmul_encloses Rnd.exact (1 / L.mid Rnd.exact) L oL).1 _ ⟨d, hdL, rfl⟩
  rw [hsc] at hlam
  set r := (L.b - L.a) / |L.a + L.b|
  set c := X.mid Rnd.exact with hcdef
  set lam := 1 / L.mid Rnd.exact
  have l1 : 1 - r ≤ lam * d := hlam.1
  have l2 : lam * d ≤ 1 + r := hlam.2
  set g := -lam * f c with hg
  have hgd : g = lam * d * (x - c) := by
    rw [hx] at hd
    rw [hg]
    have : f c = -(d * (x - c)) := by linarith
    rw [this]; ring
  have hb : Iv.rmul Rnd.exact (-lam) (degen (f c)) = degen g := by
    simp [Iv.rmul, degen, hg]
  have o1 : Ordinary (degen g) := ⟨rfl, le_refl _⟩
  have o2 : Ordinary (⟨.classical, 1 - r, 1 + r⟩ : Iv K) := ⟨rfl, by simp; linarith⟩
  have hno : ¬ (0 : K) ∈ (⟨.classical, 1 - r, 1 + r⟩ : Iv K) := fun h0 => by
    have : 1 - r ≤ 0 := h0.1
    linarith
  have hno' : Iv.containsNum (⟨.classical, 1 - r, 1 + r⟩ : Iv K) 0 = false := by
    rw [Bool.eq_false_iff]
    exact fun h0 => hno (containsNum_iff.mp h0)
  obtain ⟨G, hG, oG⟩ := ((C03_div_error_iff Rnd.exact _ _ o1 o2).2).mpr hno
  have hstep : hsStep Rnd.exact func J X (degen c) = .ok ((degen c).add Rnd.exact G) := by
    unfold hsStep
    rw [hL]
    dsimp only
    rw [if_neg (mid_ne hm), hF]
    dsimp only
    have hsc' : Iv.rmul Rnd.exact (Rnd.exact.nr (1 / L.mid Rnd.exact)) L = ⟨.classical, 1 - r, 1 + r⟩ := hsc
    have hb' : Iv.rmul Rnd.exact (-(Rnd.exact.nr (1 / L.mid Rnd.exact))) (degen (f c)) = degen g := hb
    rw [hsc', hb', hno', hG]
    rfl
  refine ⟨_, hstep, (hsStep_keeps Rnd.exact (fun _ => True) midOK_exact func J f x0 h.ext h.slopes x hx X _ _ hX hs
    hxX hc hstep).1, ?_⟩
  obtain ⟨_, ⟨t, ht, s, hs1, ea⟩, ⟨t', ht', s', hs1', eb⟩⟩ := C11_div_range _ _ G o1 o2 hG
  have ht0 : t = g := le_antisymm ht.2 ht.1
  have ht0' : t' = g := le_antisymm ht'.2 ht'.1
  rw [ht0] at ea
  rw [ht0'] at eb
  have s1 : 1 - r ≤ s := hs1.1
  have s2 : s ≤ 1 + r := hs1.2
  have s1' : 1 - r ≤ s' := hs1'.1
  have s2' : s' ≤ 1 + r := hs1'.2
  have ra : 0 < 1 - r := by linarith
  have hca : ((degen c).add Rnd.exact G).a = c + G.a := by simp [Iv.add, degen]
  have hcb : ((degen c).add Rnd.exact G).b = c + G.b := by simp [Iv.add, degen]
  rw [hca, hcb]
  have hc2 : c = (X.b + X.a) / 2 := by
    rw [hcdef]; simp only [Iv.mid, Rnd.exact_nr, id]; ring
  have x1 : X.a ≤ x := hxX.1
  have x2 : x ≤ X.b := hxX.2
  have m1 := min_le_left X.b (c + G.b)
  have m2 := min_le_right X.b (c + G.b)
  have m3 := le_max_left X.a (c + G.a)
  have m4 := le_max_right X.a (c + G.a)
  rcases hq' with hq' | hq'
  · refine le_trans ?_ hq'
    rcases le_total 0 g with hg0 | hg0
    · have : 0 ≤ G.a := by rw [ea]; exact div_nonneg hg0 (by linarith)
      linarith
    · have : G.b ≤ 0 := by rw [eb]; exact div_nonpos_of_nonpos_of_nonneg hg0 (by linarith)
      linarith
  · refine le_trans ?_ hq'
    have hw : |x - c| ≤ (X.b - X.a) / 2 := by rw [abs_le]; constructor <;> linarith
    have hgw : |g| ≤ (1 + r) * ((X.b - X.a) / 2) := by
      rw [hgd, abs_mul, abs_of_nonneg (by linarith : 0 ≤ lam * d)]
      exact mul_le_mul l2 hw (abs_nonneg _) (by linarith)
    have hGab : G.b - G.a ≤ |g| * (1 / (1 - r) - 1 / (1 + r)) := by
      have i1 : 1 / (1 + r) ≤ 1 / s := one_div_le_one_div_of_le (by linarith) s2
      have i2 : 1 / s ≤ 1 / (1 - r) := one_div_le_one_div_of_le ra s1
      have i3 : 1 / (1 + r) ≤ 1 / s' := one_div_le_one_div_of_le (by linarith) s2'
      have i4 : 1 / s' ≤ 1 / (1 - r) := one_div_le_one_div_of_le ra s1'
      have : G.b - G.a = g * (1 / s' - 1 / s) := by rw [ea, eb]; ring
      rw [this]
      refine (le_abs_self _).trans ?_
      rw [abs_mul]
      refine mul_le_mul_of_nonneg_left ?_ (abs_nonneg _)
      rw [abs_le]
      constructor <;> linarith
    have hfin : |g| * (1 / (1 - r) - 1 / (1 + r)) ≤ r / (1 - r) * (X.b - X.a) := by
      have e : r / (1 - r) * (X.b - X.a)
          = (1 + r) * ((X.b - X.a) / 2) * (1 / (1 - r) - 1 / (1 + r)) := by
        have : 1 - r ≠ 0 := ra.ne'
        have : 1 + r ≠ 0 := by linarith
        field_simp
        ring
      rw [e]
      refine mul_le_mul_of_nonneg_right hgw ?_
      have := one_div_le_one_div_of_le ra (by linarith : 1 - r ≤ 1 + r)
      linarith
    linarith

/-! ## C129 -/

theorem start_ok {func J : Iv K → Except Err (Iv K)} {f : K → K} {x0 : Iv K} (h : NewtonData func J f x0) {x : K}
    (hx0 : x ∈ x0) (hx : f x = 0) : ∃ F, func x0 = .ok F ∧ F.containsNum 0 = true := by
  obtain ⟨F, hF⟩ := h.total
  have := (h.ext x0 F h.ord (fun _ h => h) hF).2 x hx0
  rw [hx] at this
  exact ⟨F, hF, containsNum_iff.mpr this⟩

/-- C129, Krawczyk: if on every part of the start interval the slopes satisfy `wid L ≤ ρ |L.a + L.b|` with `ρ < 1`,
every limit `maxiter ≥ N` with `ρ ^ N W ≤ tol` gives the same answer, an interval that contains the zero and is no
wider than `2 ρ tol / (1 - ρ)`. -/
theorem C129_krawczyk_linear {func J : Iv K → Except Err (Iv K)} {f : K → K} {x0 : Iv K} (h : NewtonData func J f x0)
    (x : K) (hx0 : x ∈ x0) (hx : f x = 0) (ρ : K) (hρ0 : 0 ≤ ρ) (hρ1 : ρ < 1)
    (hJ : ∀ X L, Ordinary X → Sub X x0 → J X = .ok L → L.b - L.a ≤ ρ * |L.a + L.b|) (tol : K) (N maxiter : ℕ)
    (ht : ρ ^ N * (x0.b - x0.a) ≤ tol) (hN : N ≤ maxiter) :
    ∃ Z, krawczyk Rnd.exact func J x0 maxiter tol = .ok (some Z) ∧
      krawczyk Rnd.exact func J x0 N tol = .ok (some Z) ∧
      Ordinary Z ∧ Sub Z x0 ∧ x ∈ Z ∧ Z.b - Z.a ≤ 2 * ρ * tol / (1 - ρ) := by
  have hs := kraw_shrinks h x hx (fun w => ρ * w) (fun X L hX hsub hL => by
    obtain ⟨L', hL', hm⟩ := h.jtotal X hX hsub
    rw [hL] at hL'
    cases hL'
    exact mul_le_mul_of_nonneg_right ((div_le_iff₀ (abs_pos.mpr hm)).mpr (hJ X L hX hsub hL))
      (sub_nonneg.mpr hX.2))
  obtain ⟨F, hF, hF0⟩ := start_ok h hx0 hx
  obtain ⟨Z, z1, z2, z3⟩ := nlLoop_start ρ tol hρ0 hρ1 hs h.ord hx0 N (maxiter + 1) ht (by omega)
  have e1 : ((maxiter : ℤ) + 1).toNat = maxiter + 1 := by omega
  have e2 : ((N : ℤ) + 1).toNat = N + 1 := by omega
  exact ⟨Z, by simp only [krawczyk, hF, hF0, if_true, e1, z1], by simp only [krawczyk, hF, hF0, if_true, e2, z2], z3⟩

/-- C129, Krawczyk: if the slopes satisfy `wid L ≤ 2 C wid X |mid L|` (an estimate that a Lipschitz condition on
the derivative gives), every pass squares the width times `C`. -/
theorem C129_krawczyk_quadratic {func J : Iv K → Except Err (Iv K)} {f : K → K} {x0 : Iv K}
    (h : NewtonData func J f x0) (x : K) (hx0 : x ∈ x0) (hx : f x = 0) (C : K) (hC : 0 ≤ C)
    (hJ : ∀ X L, Ordinary X → Sub X x0 → J X = .ok L → L.b - L.a ≤ C * (X.b - X.a) * |L.a + L.b|) (tol : K)
    (ht : tol < 0) (maxiter : ℕ) :
    ∃ Z, krawczyk Rnd.exact func J x0 maxiter tol = .ok (some Z) ∧
      Ordinary Z ∧ Sub Z x0 ∧ x ∈ Z ∧ C * (Z.b - Z.a) ≤ (C * (x0.b - x0.a)) ^ 2 ^ (maxiter + 1) := by
  have hs := kraw_shrinks h x hx (fun w => C * w * w) (fun X L hX hsub hL => by
    obtain ⟨L', hL', hm⟩ := h.jtotal X hX hsub
    rw [hL] at hL'
    cases hL'
    exact mul_le_mul_of_nonneg_right ((div_le_iff₀ (abs_pos.mpr hm)).mpr (hJ X L hX hsub hL))
      (sub_nonneg.mpr hX.2))
  obtain ⟨F, hF, hF0⟩ := start_ok h hx0 hx
  obtain ⟨Z, z1, z2⟩ := nlLoop_quadratic C tol hC ht hs (maxiter + 1) x0 none (fun _ h => by cases h) h.ord
    (fun _ h => h) hx0
  have e1 : ((maxiter : ℤ) + 1).toNat = maxiter + 1 := by omega
  exact ⟨Z, by simp only [krawczyk, hF, hF0, if_true, e1, z1], z2⟩

/-- C129, Hansen-Sengupta: if the slopes are bounded away from zero (no slope interval contains zero), every limit
`maxiter ≥ N + 1` with `W / 2 ^ N ≤ tol` gives the same answer, an interval that contains the zero and is no wider
than `2 tol`. -/
theorem C129_hansen_sengupta_half {func J : Iv K → Except Err (Iv K)} {f : K → K} {x0 : Iv K}
    (h : NewtonData func J f x0) (x : K) (hx0 : x ∈ x0) (hx : f x = 0)
    (hJ : ∀ X L, Ordinary X → Sub X x0 → J X = .ok L → L.b - L.a < |L.a + L.b|) (tol : K) (N maxiter : ℕ)
    (ht : (1 / 2) ^ N * (x0.b - x0.a) ≤ tol) (hN : N + 1 ≤ maxiter) :
    ∃ Z, hansenSengupta Rnd.exact func J x0 maxiter tol = .ok (some Z) ∧
      hansenSengupta Rnd.exact func J x0 (N + 1 : ℕ) tol = .ok (some Z) ∧
      Ordinary Z ∧ Sub Z x0 ∧ x ∈ Z ∧ Z.b - Z.a ≤ 2 * tol := by
  have hs := hs_shrinks h x hx (fun w => 1 / 2 * w) hJ (fun X L _ _ _ => .inl (by
    show _ ≤ 1 / 2 * (X.b - X.a)
    linarith))
  obtain ⟨F, hF, hF0⟩ := start_ok h hx0 hx
  obtain ⟨Z, z1, z2, z3, z4, z5, z6⟩ := nlLoop_start (1 / 2) tol (by norm_num) (by norm_num) hs h.ord hx0 N maxiter ht hN
  refine ⟨Z, by simp only [hansenSengupta, hF, hF0, if_true, Int.toNat_natCast, z1],
    by simp only [hansenSengupta, hF, hF0, if_true, Int.toNat_natCast, z2], z3, z4, z5, z6.trans (le_of_eq ?_)⟩
  ring

/-- C129, Hansen-Sengupta: if the slopes satisfy `wid L ≤ C wid X (|L.a + L.b| - wid L)` (twice the mignitude of `L` in
the last factor), every pass squares the width times `C`. -/
theorem C129_hansen_sengupta_quadratic {func J : Iv K → Except Err (Iv K)} {f : K → K} {x0 : Iv K}
    (h : NewtonData func J f x0) (x : K) (hx0 : x ∈ x0) (hx : f x = 0) (C : K) (hC : 0 ≤ C)
    (hJ0 : ∀ X L, Ordinary X → Sub X x0 → J X = .ok L → L.b - L.a < |L.a + L.b|)
    (hJ : ∀ X L, Ordinary X → Sub X x0 → J X = .ok L →
      L.b - L.a ≤ C * (X.b - X.a) * (|L.a + L.b| - (L.b - L.a))) (tol : K)
    (ht : tol < 0) (maxiter : ℕ) :
    ∃ Z, hansenSengupta Rnd.exact func J x0 maxiter tol = .ok (some Z) ∧
      Ordinary Z ∧ Sub Z x0 ∧ x ∈ Z ∧ C * (Z.b - Z.a) ≤ (C * (x0.b - x0.a)) ^ 2 ^ maxiter := by
  have hs := hs_shrinks h x hx (fun w => C * w * w) hJ0 (fun X L hX hsub hL => .inr (by
    have := hJ0 X L hX hsub hL
    exact mul_le_mul_of_nonneg_right ((div_le_iff₀ (by linarith)).mpr (hJ X L hX hsub hL))
      (sub_nonneg.mpr hX.2)))
  obtain ⟨F, hF, hF0⟩ := start_ok h hx0 hx
  obtain ⟨Z, z1, z2⟩ := nlLoop_quadratic C tol hC ht hs maxiter x0 none (fun _ h => by cases h) h.ord
    (fun _ h => h) hx0
  exact ⟨Z, by simp only [hansenSengupta, hF, hF0, if_true, Int.toNat_natCast, z1], z2⟩

/-! ### `x² - 9/4` on `[1, 2 - 1/4]` -/

theorem exFunc_point (c : ℚ) : exFunc (degen c) = .ok (degen (c ^ 2 - 9 / 4)) := by
  have e : Iv.powNat Rnd.exact (degen c) 2 = degen (c ^ 2) := by
    simp only [Iv.powNat, degen, Rnd.exact_dn, Rnd.exact_up, id, min_self, max_self]
    split_ifs with h
    · have h0 : (0 : ℚ) ∈ (⟨.classical, c, c⟩ : Iv ℚ) := containsNum_iff.mp h.2
      have : c = 0 := le_antisymm h0.1 h0.2
      rw [this]; norm_num
    · rfl
  rw [exFunc, e]
  simp only [degen, Iv.subNum, Iv.radd, Rnd.exact_dn, Rnd.exact_up, id]
  congr 2 <;> ring

theorem exJ_ends (X : Iv ℚ) (hX : Ordinary X) : exJ X = .ok ⟨.classical, 2 * X.a, 2 * X.b⟩ := by
  have := hX.2
  simp only [exJ, Iv.rmul, hX.1, Rnd.exact_dn, Rnd.exact_up, id]
  rw [min_eq_left (by linarith), max_eq_right (by linarith)]

theorem exNewton (x0 : Iv ℚ) (h0 : Ordinary x0) (h1 : 1 ≤ x0.a) :
    NewtonData exFunc exJ (fun x => x ^ 2 - 9 / 4) x0 where
  ord := h0
  ext := exFunc_ok x0
  slopes := exJ_ok x0
  total := ⟨_, rfl⟩
  point := fun c _ => exFunc_point c
  jtotal := fun X hX hs => ⟨_, exJ_ends X hX, by
    have h2 := (sub_ends hX hs).1
    have h3 := hX.2
    show 2 * X.a + 2 * X.b ≠ 0
    have : 0 < 2 * X.a + 2 * X.b := by linarith
    exact this.ne'⟩

/-- Eleven passes of `Krawczyk` from `[1, 3]` reach the tolerance `1/500`, and a larger limit changes nothing. -/
example (maxiter : ℕ) (h : 10 ≤ maxiter) :
    ∃ Z, krawczyk Rnd.exact exFunc exJ ⟨.classical, 1, 3⟩ maxiter (1 / 500) = .ok (some Z) ∧
      3 / 2 ∈ Z ∧ Z.b - Z.a ≤ 1 / 250 := by
  obtain ⟨Z, z1, _, _, _, z5, z6⟩ := C129_krawczyk_linear (exNewton ⟨.classical, 1, 3⟩ ⟨rfl, by norm_num⟩ (by norm_num))
    (3 / 2) ⟨by norm_num, by norm_num⟩ (by norm_num) (1 / 2) (by norm_num) (by norm_num)
    (fun X L hX hs hL => by
      rw [exJ_ends X hX] at hL
      cases hL
      obtain ⟨s1, s2⟩ := sub_ends hX hs
      simp only at s1 s2 ⊢
      have := hX.2
      rw [abs_of_nonneg (by linarith)]
      linarith) (1 / 500) 10 maxiter (by norm_num) h
  exact ⟨Z, z1, z5, z6.trans (by norm_num)⟩

/-- Six passes of `Krawczyk` from `[1, 7/4]` leave an interval no wider than `2 (3/8)^64 < 1e-26`. -/
example : ∃ Z, krawczyk Rnd.exact exFunc exJ ⟨.classical, 1, 7 / 4⟩ (5 : ℕ) (-1) = .ok (some Z) ∧
    3 / 2 ∈ Z ∧ Z.b - Z.a ≤ 1 / 10 ^ 26 := by
  obtain ⟨Z, z1, _, _, z5, z6⟩ := C129_krawczyk_quadratic
    (exNewton ⟨.classical, 1, 7 / 4⟩ ⟨rfl, by norm_num⟩ (by norm_num)) (3 / 2) ⟨by norm_num, by norm_num⟩ (by norm_num)
    (1 / 2) (by norm_num)
    (fun X L hX hs hL => by
      rw [exJ_ends X hX] at hL
      cases hL
      obtain ⟨s1, s2⟩ := sub_ends hX hs
      simp only at s1 s2 ⊢
      have := hX.2
      rw [abs_of_nonneg (by linarith)]
      nlinarith) (-1) (by norm_num) 5
  refine ⟨Z, z1, z5, ?_⟩
  have : (1 / 2 * ((7 : ℚ) / 4 - 1)) ^ 2 ^ (5 + 1) ≤ 1 / 2 * (1 / 10 ^ 26) := by norm_num
  have z6' : 1 / 2 * (Z.b - Z.a) ≤ (1 / 2 * ((7 : ℚ) / 4 - 1)) ^ 2 ^ (5 + 1) := z6
  linarith

/-- Eleven passes of `HansenSengupta` from `[1, 3]`. -/
example (maxiter : ℕ) (h : 11 ≤ maxiter) :
    ∃ Z, hansenSengupta Rnd.exact exFunc exJ ⟨.classical, 1, 3⟩ maxiter (1 / 500) = .ok (some Z) ∧
      3 / 2 ∈ Z ∧ Z.b - Z.a ≤ 1 / 250 := by
  obtain ⟨Z, z1, _, _, _, z5, z6⟩ := C129_hansen_sengupta_half
    (exNewton ⟨.classical, 1, 3⟩ ⟨rfl, by norm_num⟩ (by norm_num))
    (3 / 2) ⟨by norm_num, by norm_num⟩ (by norm_num)
    (fun X L hX hs hL => by
      rw [exJ_ends X hX] at hL
      cases hL
      obtain ⟨s1, s2⟩ := sub_ends hX hs
      simp only at s1 s2 ⊢
      have := hX.2
      rw [abs_of_nonneg (by linarith)]
      linarith) (1 / 500) 10 maxiter (by norm_num) h
  exact ⟨Z, z1, z5, z6.trans (by norm_num)⟩

/-- Six passes of `HansenSengupta` from `[1, 7/4]`. -/
example : ∃ Z, hansenSengupta Rnd.exact exFunc exJ ⟨.classical, 1, 7 / 4⟩ (6 : ℕ) (-1) = .ok (some Z) ∧
    3 / 2 ∈ Z ∧ Z.b - Z.a ≤ 1 / 10 ^ 26 := by
  obtain ⟨Z, z1, _, _, z5, z6⟩ := C129_hansen_sengupta_quadratic
    (exNewton ⟨.classical, 1, 7 / 4⟩ ⟨rfl, by norm_num⟩ (by norm_num)) (3 / 2) ⟨by norm_num, by norm_num⟩ (by norm_num)
    (1 / 2) (by norm_num)
    (fun X L hX hs hL => by
      rw [exJ_ends X hX] at hL
      cases hL
      obtain ⟨s1, s2⟩ := sub_ends hX hs
      simp only at s1 s2 ⊢
      have := hX.2
      rw [abs_of_nonneg (by linarith)]
      linarith)
    (fun X L hX hs hL => by
      rw [exJ_ends X hX] at hL
      cases hL
      obtain ⟨s1, s2⟩ := sub_ends hX hs
      simp only at s1 s2 ⊢
      have := hX.2
      rw [abs_of_nonneg (by linarith)]
      nlinarith) (-1) (by norm_num) 6
  refine ⟨Z, z1, z5, ?_⟩
  have : (1 / 2 * ((7 : ℚ) / 4 - 1)) ^ 2 ^ 6 ≤ 1 / 2 * (1 / 10 ^ 26) := by norm_num
  have z6' : 1 / 2 * (Z.b - Z.a) ≤ (1 / 2 * ((7 : ℚ) / 4 - 1)) ^ 2 ^ 6 := z6
  linarith

end IntvalPy
