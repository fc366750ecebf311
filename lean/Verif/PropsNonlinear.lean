import Verif.ModelNonlinear
import Verif.PropsGauss
import Verif.ProofsFloat
import Mathlib.Data.List.InsertIdx

/-!
# Nonlinear solvers (C39, C40, C41)
-/

set_option autoImplicit false
set_option linter.unusedSectionVars false

namespace IntvalPy
open Spec

variable {K : Type*} [Field K] [LinearOrder K] [IsStrictOrderedRing K]

/-- `G` is a set of numbers (the doubles, say) that contains all directed rounding results, and the midpoint of an
interval with endpoints in `G` lies in the interval. -/
structure MidOK (R : Rnd K) (G : K → Prop) : Prop where
  dn_mem : ∀ t, G (R.dn t)
  up_mem : ∀ t, G (R.up t)
  nr_mem : ∀ t, G (R.nr t)
  mid_mem : ∀ X : Iv K, G X.a → G X.b → X.a ≤ X.b → X.mid R ∈ X

theorem midOK_exact : MidOK (Rnd.exact : Rnd K) (fun _ => True) where
  dn_mem _ := trivial
  up_mem _ := trivial
  nr_mem _ := trivial
  mid_mem X _ _ h := by
    simp only [Iv.mid, Rnd.exact_nr, id, Iv.mem_def]
    constructor <;> linarith

/-- It is enough that directed rounding leaves the numbers of `G` and their doubles alone. -/
theorem midOK_of (R : Rnd K) (G : K → Prop) (hd : ∀ t, G (R.dn t)) (hu : ∀ t, G (R.up t)) (hn : ∀ t, G (R.nr t))
    (hfd : ∀ t, G t → R.dn t = t) (hfu : ∀ t, G t → R.up t = t) (h2 : ∀ t, G t → G (2 * t)) : MidOK R G where
  dn_mem := hd
  up_mem := hu
  nr_mem := hn
  mid_mem X ga gb h := by
    have lo : ∀ f t, G f → f ≤ t → f ≤ R.nr t := fun f t hf hft => by
      rw [← hfd f hf]; exact (R.dn_mono hft).trans (R.dn_le_nr t)
    have hi : ∀ f t, G f → t ≤ f → R.nr t ≤ f := fun f t hf hft => by
      rw [← hfu f hf]; exact (R.nr_le_up t).trans (R.up_mono hft)
    have h1 := lo _ (X.b + X.a) (h2 _ ga) (by linarith)
    have h3 := hi _ (X.b + X.a) (h2 _ gb) (by linarith)
    exact ⟨lo _ _ ga (by linarith), hi _ _ gb (by linarith)⟩

/-- IEEE double rounding (no overflow) satisfies the assumption. -/
theorem midOK_b64 [FloorRing K] : MidOK (Rnd.b64 : Rnd K) IsF :=
  midOK_of _ _ floorTo_isF ceilTo_isF nearTo_isF (fun _ h => floorTo_of_isF h) (fun _ h => ceilTo_of_isF h)
    (fun t h => by
      obtain ⟨m, e, h1, h2, rfl⟩ := h
      exact ⟨m, e + 1, h1, by omega, by rw [zpow_add_one₀ two_ne_zero]; ring⟩)

/-- `func` is an interval extension of `f` on the part of the line inside `x0`. -/
def IsExtension (func : Iv K → Except Err (Iv K)) (f : K → K) (x0 : Iv K) : Prop :=
  ∀ X F, Ordinary X → Sub X x0 → func X = .ok F → Ordinary F ∧ ∀ x ∈ X, f x ∈ F

/-- `J` encloses the difference quotients of `f` (as the range of the derivative does). -/
def IsSlopes (J : Iv K → Except Err (Iv K)) (f : K → K) (x0 : Iv K) : Prop :=
  ∀ X L, Ordinary X → Sub X x0 → J X = .ok L → Ordinary L ∧ ∀ x ∈ X, ∀ c ∈ X, ∃ d ∈ L, f x - f c = d * (x - c)

theorem degen_mem (c : K) : c ∈ degen c ∧ Ordinary (degen c) := ⟨⟨le_refl _, le_refl _⟩, rfl, le_refl _⟩

/-- One step of an iteration keeps zeros. -/
def KeepsZero (G : K → Prop) (step : Iv K → Iv K → Except Err (Iv K)) (x : K) (x0 : Iv K) : Prop :=
  ∀ X c Z, Ordinary X → Sub X x0 → x ∈ X → c ∈ X → step X (degen c) = .ok Z → x ∈ Z ∧ G Z.a ∧ G Z.b

theorem add_ends (R : Rnd K) (G : K → Prop) (hG : MidOK R G) (X Y : Iv K) : G (X.add R Y).a ∧ G (X.add R Y).b := by
  unfold Iv.add
  split <;> exact ⟨hG.dn_mem _, hG.up_mem _⟩

theorem krawStep_keeps (R : Rnd K) (G : K → Prop) (hG : MidOK R G) (func J : Iv K → Except Err (Iv K)) (f : K → K)
    (x0 : Iv K) (hf : IsExtension func f x0) (hJ : IsSlopes J f x0) (x : K) (hx : f x = 0) :
    KeepsZero G (krawStep R func J) x x0 := by
  intro X c Z hX hs hxX hc h
  unfold krawStep at h
  split at h
  · cases h
  rename_i L hL
  split_ifs at h
  dsimp only at h
  split at h
  · cases h
  rename_i Fc hFc
  cases h
  obtain ⟨oL, hd⟩ := hJ X L hX hs hL
  obtain ⟨d, hdL, hd⟩ := hd x hxX c hc
  have hcs : Sub (degen c) x0 := fun t ht => by
    have : t = c := le_antisymm ht.2 ht.1
    subst this
    exact hs t hc
  obtain ⟨oF, hF⟩ := hf (degen c) Fc (degen_mem c).2 hcs hFc
  have hFc' := hF c (degen_mem c).1
  refine ⟨?_, add_ends R G hG _ _⟩
  set lam := R.nr (1 / L.mid R)
  obtain ⟨r1, _, r2⟩ := C05_rmul_encloses R lam L oL
  obtain ⟨r3, _, r4⟩ := C05_rmul_encloses R lam Fc oF
  have b1 : 1 - lam * d ∈ (Iv.rmul R lam L).rsub R 1 :=
    (C05_radd_rsub_enclose R 1 (Iv.rmul R lam L)).2.1 _ ⟨lam * d, r1 _ ⟨d, hdL, rfl⟩, rfl⟩
  have b2 : Ordinary ((Iv.rmul R lam L).rsub R 1) := by
    refine ⟨r2.1, ?_⟩
    simp only [Iv.rsub]
    exact (R.dn_le _).trans ((sub_le_sub_left r2.2 _).trans (R.le_up _))
  have b3 : x - c ∈ X.sub R (degen c) := C01_sub_encloses R X (degen c) _ ⟨x, hxX, c, (degen_mem c).1, rfl⟩
  have b4 := (C01_add_sub_ordinary R X (degen c) hX (degen_mem c).2).2
  have b5 := C02_mul_encloses R _ _ b2 b4 _ ⟨_, b1, _, b3, rfl⟩
  have b6 := C01_sub_encloses R (degen c) _ _ ⟨c, (degen_mem c).1, lam * f c, r3 _ ⟨f c, hFc', rfl⟩, rfl⟩
  have b7 := C01_add_encloses R _ _ _ ⟨_, b6, _, b5, rfl⟩
  have e : c - lam * f c + (1 - lam * d) * (x - c) = x := by
    have : f c = -(d * (x - c)) := by linarith
    rw [this]; ring
  rwa [e] at b7

theorem hsStep_keeps (R : Rnd K) (G : K → Prop) (hG : MidOK R G) (func J : Iv K → Except Err (Iv K)) (f : K → K)
    (x0 : Iv K) (hf : IsExtension func f x0) (hJ : IsSlopes J f x0) (x : K) (hx : f x = 0) :
    KeepsZero G (hsStep R func J) x x0 := by
  intro X c Z hX hs hxX hc h
  unfold hsStep at h
  split at h
  · cases h
  rename_i L hL
  split_ifs at h
  dsimp only at h
  split at h
  · cases h
  rename_i Fc hFc
  split_ifs at h
  obtain ⟨oL, hd⟩ := hJ X L hX hs hL
  obtain ⟨d, hdL, hd⟩ := hd x hxX c hc
  have hcs : Sub (degen c) x0 := fun t ht => by
    have : t = c := le_antisymm ht.2 ht.1
    subst this
    exact hs t hc
  obtain ⟨oF, hF⟩ := hf (degen c) Fc (degen_mem c).2 hcs hFc
  have hFc' := hF c (degen_mem c).1
  set lam := R.nr (1 / L.mid R)
  obtain ⟨r1, _, r2⟩ := C05_rmul_encloses R lam L oL
  obtain ⟨r3, _, r4⟩ := C05_rmul_encloses R (-lam) Fc oF
  cases hd' : (Iv.rmul R (-lam) Fc).div R (Iv.rmul R lam L) with
  | error e => rw [hd'] at h; cases h
  | ok GS =>
    rw [hd'] at h
    cases h
    have g := div_point R _ _ GS r4 r2 hd' (-lam * f c) (lam * d) (x - c) (r3 _ ⟨f c, hFc', rfl⟩)
      (r1 _ ⟨d, hdL, rfl⟩) (by
        have : f c = -(d * (x - c)) := by linarith
        rw [this]; ring)
    refine ⟨?_, add_ends R G hG _ _⟩
    have := C01_add_encloses R (degen c) GS _ ⟨c, (degen_mem c).1, _, g.1, rfl⟩
    rwa [add_sub_cancel] at this

theorem intersect_ends (R : Rnd K) (G : K → Prop) (X Z Y : Iv K) (hX : G X.a ∧ G X.b) (hZ : G Z.a ∧ G Z.b)
    (h : intersect R X Z = some Y) : G Y.a ∧ G Y.b := by
  unfold intersect at h
  dsimp only at h
  split_ifs at h <;> cases h <;> simp_all

/-- The loop keeps a zero, whatever the tolerance and the number of passes; the exception of the caller's code aside,
it cannot fail with the exception "no solutions" unless the step does. -/
theorem nlLoop_spec (R : Rnd K) (G : K → Prop) (hG : MidOK R G) (step : Iv K → Iv K → Except Err (Iv K)) (tol x : K)
    (x0 : Iv K) (hstep : KeepsZero G step x x0) :
    ∀ (fuel : ℕ) (X : Iv K) (e : Option K), Ordinary X → Sub X x0 → x ∈ X → G X.a → G X.b →
      ∀ r, nlLoop R step tol fuel X e = .ok r → ∃ Z, r = some Z ∧ x ∈ Z ∧ Ordinary Z ∧ Sub Z x0 := by
  intro fuel
  induction fuel with
  | zero => intro X e hX hs hx _ _ r h; cases h; exact ⟨X, rfl, hx, hX, hs⟩
  | succ fuel ih =>
    intro X e hX hs hx ga gb r h
    unfold nlLoop at h
    split_ifs at h
    · split at h
      · cases h
      rename_i Z hZ
      obtain ⟨hxZ, hGZ⟩ := hstep X _ Z hX hs hx (hG.mid_mem X ga gb hX.2) hZ
      obtain ⟨i1, i2, _, _⟩ := C23_intersection_partial R X Z
      obtain ⟨Y, hY, oY, hxY⟩ := i1 x hx hxZ
      rw [hY] at h
      dsimp only at h
      have hsub : Sub Y X := fun t ht => ((i2 Y hY ⟨x, hx, hxZ⟩ t).mp ht).1
      obtain ⟨g1, g2⟩ := intersect_ends R G X Z Y ⟨ga, gb⟩ hGZ hY
      exact ih Y _ oY (fun t ht => hs t (hsub t ht)) hxY g1 g2 r h
    · cases h; exact ⟨X, rfl, hx, hX, hs⟩

/-- C39: for a function `f` with interval extension `func` and slope (derivative) enclosure `J`, any rounding, any
tolerance and any number of iterations: whenever `Krawczyk` returns, the result is an ordinary interval inside the
start interval that contains every zero of `f` in it.  So if the NaN interval (`none`) is returned there is no zero,
and the test before the loop raises only when there is none. -/
theorem C39_krawczyk (R : Rnd K) (G : K → Prop) (hG : MidOK R G) (func J : Iv K → Except Err (Iv K)) (f : K → K)
    (x0 : Iv K) (h0 : Ordinary x0) (ga : G x0.a) (gb : G x0.b) (hf : IsExtension func f x0) (hJ : IsSlopes J f x0)
    (maxiter : ℤ) (tol : K) (x : K) (hx0 : x ∈ x0) (hx : f x = 0) :
    (∀ r, krawczyk R func J x0 maxiter tol = .ok r → ∃ Z, r = some Z ∧ x ∈ Z ∧ Ordinary Z ∧ Sub Z x0) ∧
    ∀ F, func x0 = .ok F → F.containsNum 0 = true := by
  have h2 : ∀ F, func x0 = .ok F → F.containsNum 0 = true := fun F hF => by
    have := (hf x0 F h0 (fun _ h => h) hF).2 x hx0
    rw [hx] at this
    exact containsNum_iff.mpr this
  refine ⟨fun r h => ?_, h2⟩
  unfold krawczyk at h
  split at h
  · cases h
  rename_i F hF
  rw [if_pos (h2 F hF)] at h
  exact nlLoop_spec R G hG _ tol x x0 (krawStep_keeps R G hG func J f x0 hf hJ x hx) _ x0 none h0 (fun _ h => h) hx0
    ga gb r h

/-- C40 (scalar intervals): the same for `HansenSengupta`.  Missing from `C40_statement`: interval vectors. -/
theorem C40_hansen_sengupta_partial (R : Rnd K) (G : K → Prop) (hG : MidOK R G) (func J : Iv K → Except Err (Iv K))
    (f : K → K) (x0 : Iv K) (h0 : Ordinary x0) (ga : G x0.a) (gb : G x0.b) (hf : IsExtension func f x0)
    (hJ : IsSlopes J f x0) (maxiter : ℤ) (tol : K) (x : K) (hx0 : x ∈ x0) (hx : f x = 0) :
    (∀ r, hansenSengupta R func J x0 maxiter tol = .ok r → ∃ Z, r = some Z ∧ x ∈ Z ∧ Ordinary Z ∧ Sub Z x0) ∧
    ∀ F, func x0 = .ok F → F.containsNum 0 = true := by
  have h2 : ∀ F, func x0 = .ok F → F.containsNum 0 = true := fun F hF => by
    have := (hf x0 F h0 (fun _ h => h) hF).2 x hx0
    rw [hx] at this
    exact containsNum_iff.mpr this
  refine ⟨fun r h => ?_, h2⟩
  unfold hansenSengupta at h
  split at h
  · cases h
  rename_i F hF
  rw [if_pos (h2 F hF)] at h
  exact nlLoop_spec R G hG _ tol x x0 (hsStep_keeps R G hG func J f x0 hf hJ x hx) _ x0 none h0 (fun _ h => h) hx0
    ga gb r h

theorem nlLoop_no_exception (R : Rnd K) (step : Iv K → Iv K → Except Err (Iv K)) (tol : K)
    (h : ∀ X c, step X c ≠ .error .exception) :
    ∀ (fuel : ℕ) (X : Iv K) (e : Option K), nlLoop R step tol fuel X e ≠ .error .exception := by
  intro fuel
  induction fuel with
  | zero => intro X e h'; cases h'
  | succ fuel ih =>
    intro X e h'
    unfold nlLoop at h'
    split_ifs at h'
    split at h'
    · rename_i e' he
      cases h'
      exact h _ _ he
    · split at h'
      · cases h'
      · exact ih _ _ h'

/-- C39 (no false alarm): if the user's functions do not raise, `Krawczyk` never raises its exception "the box contains
no solutions" when there is a zero. -/
theorem C39_krawczyk_no_false_alarm (R : Rnd K) (func J : Iv K → Except Err (Iv K)) (f : K → K)
    (x0 : Iv K) (h0 : Ordinary x0) (hf : IsExtension func f x0)
    (hfe : ∀ X, func X ≠ .error .exception) (hJe : ∀ X, J X ≠ .error .exception)
    (maxiter : ℤ) (tol : K) (x : K) (hx0 : x ∈ x0) (hx : f x = 0) :
    krawczyk R func J x0 maxiter tol ≠ .error .exception := by
  intro h
  unfold krawczyk at h
  split at h
  · rename_i e he; cases h; exact hfe _ he
  rename_i F hF
  have := (hf x0 F h0 (fun _ h => h) hF).2 x hx0
  rw [hx] at this
  rw [if_pos (containsNum_iff.mpr this)] at h
  refine nlLoop_no_exception R _ tol (fun X c hc => ?_) _ _ _ h
  unfold krawStep at hc
  split at hc
  · rename_i e he; cases hc; exact hJe _ he
  split_ifs at hc
  · cases hc
  dsimp only at hc
  split at hc
  · rename_i e he; cases hc; exact hfe _ he
  · cases hc

/-- The full property C40. -/
def C40_statement (K : Type*) [Field K] [LinearOrder K] [IsStrictOrderedRing K] : Prop :=
  (∀ (func J : Iv K → Except Err (Iv K)) (f : K → K) (x0 : Iv K), Ordinary x0 → IsExtension func f x0 →
    IsSlopes J f x0 → ∀ (maxiter : ℤ) (tol x : K), x ∈ x0 → f x = 0 → ∀ r,
      hansenSengupta Rnd.exact func J x0 maxiter tol = .ok r → ∃ Z, r = some Z ∧ x ∈ Z) ∧
  ∀ (n : ℕ) (func : (Fin n → Iv K) → Except Err (List (Iv K)))
    (J : (Fin n → Iv K) → Except Err (Fin n → Fin n → Iv K)) (x0 : Fin n → Iv K) (passes : ℕ)
    (rest : (Fin n → Fin n → Iv K) → Except Err (Fin n → Iv K)) (F : List (Iv K)) (L : Fin n → Fin n → Iv K),
    0 < n → func x0 = .ok F → (∃ X ∈ F, (0 : K) ∈ X) → J x0 = .ok L → (∀ L', ∃ Z, rest L' = .ok Z) →
    ∃ Z, nlVec func J x0 passes rest = .ok Z

/-- Every call of `HansenSengupta` or `Krawczyk` with an interval vector that gets as far as its first pass raises. -/
theorem C40_vector_raises {n : ℕ} (func : (Fin n → Iv K) → Except Err (List (Iv K)))
    (J : (Fin n → Iv K) → Except Err (Fin n → Fin n → Iv K)) (x0 : Fin n → Iv K) (passes : ℕ) (hp : 0 < passes)
    (rest : (Fin n → Fin n → Iv K) → Except Err (Fin n → Iv K)) :
    ∃ e, nlVec func J x0 passes rest = .error e := by
  obtain ⟨p, rfl⟩ : ∃ p, passes = p + 1 := ⟨passes - 1, by omega⟩
  unfold nlVec
  cases func x0 with
  | error e => exact ⟨e, rfl⟩
  | ok F =>
    cases hz : zeroInVec F with
    | error e => exact ⟨e, by simp only [hz]⟩
    | ok z =>
      cases z with
      | false => exact ⟨_, by simp only [hz]; rfl⟩
      | true =>
        cases J x0 with
        | error e => exact ⟨e, by simp only [hz]⟩
        | ok L =>
          simp only [hz]
          unfold toFloat
          split_ifs <;> exact ⟨_, rfl⟩

/-- C40 is false of the code: the vector forms shown in the README always raise `AttributeError`, as intervals have no
method `to_float`. -/
theorem C40_vector_false : ¬ C40_statement ℚ := by
  intro h
  obtain ⟨Z, hZ⟩ := h.2 1 (fun X => .ok [X 0]) (fun _ => .ok fun _ _ => ⟨.classical, 1, 1⟩)
    (fun _ => ⟨.classical, -1, 1⟩) 1 (fun _ => .ok fun _ => ⟨.classical, 0, 0⟩) _ _ one_pos rfl
    ⟨_, List.mem_singleton.mpr rfl, by rw [Iv.mem_def]; norm_num⟩ rfl (fun _ => ⟨_, rfl⟩)
  obtain ⟨e, he⟩ := C40_vector_raises (fun X => .ok [X 0]) (fun _ => .ok fun _ _ => ⟨.classical, 1, 1⟩)
    (fun _ : Fin 1 => (⟨.classical, -1, 1⟩ : Iv ℚ)) 1 one_pos (fun _ => .ok fun _ => ⟨.classical, 0, 0⟩)
  rw [he] at hZ
  cases hZ

/-! ### An example for C39 and C40 -/

/-- The natural extension of `x² - 9/4`, -/
def exFunc (X : Iv ℚ) : Except Err (Iv ℚ) := .ok ((Iv.powNat Rnd.exact X 2).subNum Rnd.exact (9 / 4))
/-- and of its derivative `2x`. -/
def exJ (X : Iv ℚ) : Except Err (Iv ℚ) := .ok (Iv.rmul Rnd.exact 2 X)
/-- Endpoints of a result. -/
def exEnds : Except Err (Option (Iv ℚ)) → Option (ℚ × ℚ)
  | .ok (some Z) => some (Z.a, Z.b)
  | _ => none

theorem exFunc_ok (x0 : Iv ℚ) : IsExtension exFunc (fun x => x ^ 2 - 9 / 4) x0 := by
  intro X F hX _ h
  cases h
  obtain ⟨h1, h2⟩ : Ordinary (Iv.powNat Rnd.exact X 2) ∧ ∀ x ∈ X, x ^ 2 ∈ Iv.powNat Rnd.exact X 2 := by
    obtain ⟨p1, p2⟩ := C06_pow_encloses Rnd.exact X 2 hX
    exact ⟨p2, fun x hx => p1 _ ⟨x, hx, rfl⟩⟩
  refine ⟨⟨h1.1, ?_⟩, fun x hx => ?_⟩
  · simp only [Iv.subNum, Iv.radd, Rnd.exact_dn, Rnd.exact_up, id]
    exact add_le_add_left h1.2 _
  · exact (C05_radd_rsub_enclose Rnd.exact (9 / 4) (Iv.powNat Rnd.exact X 2)).2.2.2.2 _ ⟨_, h2 x hx, rfl⟩

theorem exJ_ok (x0 : Iv ℚ) : IsSlopes exJ (fun x => x ^ 2 - 9 / 4) x0 := by
  intro X L hX _ h
  cases h
  obtain ⟨r1, _, r2⟩ := C05_rmul_encloses Rnd.exact 2 X hX
  refine ⟨r2, fun x hx c hc => ⟨2 * ((x + c) / 2), r1 _ ⟨(x + c) / 2, ?_, rfl⟩, by ring⟩⟩
  rw [Iv.mem_def] at *
  constructor <;> linarith [hx.1, hx.2, hc.1, hc.2]

/-- The hypotheses of C39 and C40 hold for `x² - 9/4` on `[1, 3]`, which has the zero `3/2`; both iterations run (two
passes each) and really shrink the interval. -/
example : IsExtension exFunc (fun x => x ^ 2 - 9 / 4) ⟨.classical, 1, 3⟩ ∧
    IsSlopes exJ (fun x => x ^ 2 - 9 / 4) ⟨.classical, 1, 3⟩ ∧
    exEnds (krawczyk Rnd.exact exFunc exJ ⟨.classical, 1, 3⟩ 1 (1 / 100)) = some (1073/800, 1329/800) ∧
    exEnds (hansenSengupta Rnd.exact exFunc exJ ⟨.classical, 1, 3⟩ 2 (1 / 100)) = some (61/41, 247/162) :=
  ⟨exFunc_ok _, exJ_ok _, by decide +kernel, by decide +kernel⟩

/-! ### What is returned without a zero, and which exception is raised -/

/-- C39, C40: when the image of the start interval under the first step is more than `1e-15` away from it, the NaN
interval is returned; the start interval itself is never returned in that case. -/
theorem C39_nan (func J : Iv K → Except Err (Iv K)) (x0 F Z : Iv K) (maxiter : ℤ) (tol : K) (hF : func x0 = .ok F)
    (h0 : F.containsNum 0 = true) (hm : 0 ≤ maxiter) (hgap : (interTol : K) < max x0.a Z.a - min x0.b Z.b) :
    (krawStep Rnd.exact func J x0 (degen (x0.mid Rnd.exact)) = .ok Z →
      krawczyk Rnd.exact func J x0 maxiter tol = .ok none) ∧
    (0 < maxiter → hsStep Rnd.exact func J x0 (degen (x0.mid Rnd.exact)) = .ok Z →
      hansenSengupta Rnd.exact func J x0 maxiter tol = .ok none) := by
  have hn : intersect Rnd.exact x0 Z = none := (C23_intersection_partial Rnd.exact x0 Z).2.2.2.mpr hgap
  constructor
  · intro hs
    obtain ⟨n, hn'⟩ : ∃ n, (maxiter + 1).toNat = n + 1 := ⟨(maxiter + 1).toNat - 1, by omega⟩
    simp [krawczyk, hF, h0, hn', nlLoop, nlFar, hs, hn]
  · intro hp hs
    obtain ⟨n, hn'⟩ : ∃ n, maxiter.toNat = n + 1 := ⟨maxiter.toNat - 1, by omega⟩
    simp [hansenSengupta, hF, h0, hn', nlLoop, nlFar, hs, hn]

/-- The natural extension of `x² + x + 1`, -/
def nzFunc (X : Iv ℚ) : Except Err (Iv ℚ) :=
  .ok (((Iv.powNat Rnd.exact X 2).add Rnd.exact X).subNum Rnd.exact (-1))
/-- and of its derivative `2x + 1`. -/
def nzJ (X : Iv ℚ) : Except Err (Iv ℚ) := .ok ((Iv.rmul Rnd.exact 2 X).subNum Rnd.exact (-1))

/-- The NaN interval as `true`. -/
def isNaNRes : Except Err (Option (Iv ℚ)) → Bool
  | .ok none => true
  | _ => false

/-- On `[-2, -1]` the extension of `x² + x + 1` contains zero although the function has none; both functions return the
NaN interval. -/
example : (nzFunc ⟨.classical, -2, -1⟩).map (fun F => F.containsNum 0) = .ok true ∧
    isNaNRes (krawczyk Rnd.exact nzFunc nzJ ⟨.classical, -2, -1⟩ 5 (1 / 100)) = true ∧
    isNaNRes (hansenSengupta Rnd.exact nzFunc nzJ ⟨.classical, -2, -1⟩ 5 (1 / 100)) = true :=
  ⟨by decide +kernel, by decide +kernel, by decide +kernel⟩

/-- C40: when the slopes over the start interval contain zero (a multiple zero is possible), `HansenSengupta` raises
its own exception, or `ZeroDivisionError` when the midpoint of the slopes is zero; it never divides by an interval with
zero. -/
theorem C40_zero_slope (R : Rnd K) (func J : Iv K → Except Err (Iv K)) (x0 F L Fc : Iv K) (maxiter : ℤ) (tol : K)
    (hF : func x0 = .ok F) (h0 : F.containsNum 0 = true) (hm : 0 < maxiter) (hJ : J x0 = .ok L) (oL : Ordinary L)
    (hL : (0 : K) ∈ L) (hc : func (degen (x0.mid R)) = .ok Fc) :
    (L.mid R ≠ 0 → hansenSengupta R func J x0 maxiter tol = .error .exception) ∧
    (L.mid R = 0 → hansenSengupta R func J x0 maxiter tol = .error .zeroDivisionError) := by
  obtain ⟨n, hn'⟩ : ∃ n, maxiter.toNat = n + 1 := ⟨maxiter.toNat - 1, by omega⟩
  constructor
  · intro hne
    have h1 : (Iv.rmul R (R.nr (1 / L.mid R)) L).containsNum 0 = true := by
      obtain ⟨r1, _, _⟩ := C05_rmul_encloses R (R.nr (1 / L.mid R)) L oL
      have := r1 _ ⟨0, hL, rfl⟩
      rw [mul_zero] at this
      exact containsNum_iff.mpr this
    rw [one_div] at h1
    simp [hansenSengupta, hF, h0, hn', nlLoop, nlFar, hsStep, hJ, hne, hc, h1]
  · intro he
    simp [hansenSengupta, hF, h0, hn', nlLoop, nlFar, hsStep, hJ, he]

/-- `x² - 9/4` on `[-1, 3]`: the slopes `[-2, 6]` contain zero. -/
example : (exFunc ⟨.classical, -1, 3⟩).map (fun F => F.containsNum 0) = .ok true ∧
    hansenSengupta Rnd.exact exFunc exJ ⟨.classical, -1, 3⟩ 2 (1 / 100) = .error .exception :=
  ⟨by decide +kernel, (C40_zero_slope Rnd.exact exFunc exJ ⟨.classical, -1, 3⟩ _ _ _ 2 (1 / 100) rfl
    (by decide +kernel) (by norm_num) rfl
    ((exJ_ok ⟨.classical, -1, 3⟩ ⟨.classical, -1, 3⟩ _ ⟨rfl, by norm_num⟩ (fun _ h => h) rfl).1)
    (containsNum_iff.mp (by decide +kernel)) rfl).1 (by decide +kernel)⟩

/-- C40: which exception the vector forms raise in the first pass: their own exception exactly when *no* component of
the function value contains zero, so that a box is accepted as soon as one equation may hold; with some component that
contains zero the conversion to `float` raises `AttributeError`. -/
theorem C40_vector_codes {n : ℕ} (func : (Fin n → Iv K) → Except Err (List (Iv K)))
    (J : (Fin n → Iv K) → Except Err (Fin n → Fin n → Iv K)) (x0 : Fin n → Iv K) (passes : ℕ)
    (rest : (Fin n → Fin n → Iv K) → Except Err (Fin n → Iv K)) (F : List (Iv K)) (L : Fin n → Fin n → Iv K)
    (hF : func x0 = .ok F) (hne : F ≠ []) (hJ : J x0 = .ok L) (hn : 0 < n) :
    ((∀ X ∈ F, (0 : K) ∉ X) → nlVec func J x0 passes rest = .error .exception) ∧
    ((∃ X ∈ F, (0 : K) ∈ X) → nlVec func J x0 0 rest = .ok x0 ∧
      (0 < passes → nlVec func J x0 passes rest = .error .attributeError)) := by
  have he : F.isEmpty = false := by cases F <;> simp_all
  constructor
  · intro h
    have hz : zeroInVec F = .ok false := by
      simp only [zeroInVec, he, Bool.false_eq_true, if_false, Except.ok.injEq]
      rw [List.any_eq_false]
      intro X hX hc
      exact h X hX (containsNum_iff.mp hc)
    simp [nlVec, hF, hz]
  · rintro ⟨X, hX, h0⟩
    have hz : zeroInVec F = .ok true := by
      simp only [zeroInVec, he, Bool.false_eq_true, if_false, Except.ok.injEq]
      exact List.any_eq_true.mpr ⟨X, hX, containsNum_iff.mpr h0⟩
    refine ⟨by simp [nlVec, hF, hz], fun hp => ?_⟩
    obtain ⟨p, rfl⟩ : ∃ p, passes = p + 1 := ⟨passes - 1, by omega⟩
    simp [nlVec, hF, hz, hJ, toFloat, hn.ne']

/-- A function value of which only the first component contains zero passes the test. -/
example : nlVec (n := 2) (fun _ => .ok [⟨.classical, -1, 1⟩, ⟨.classical, 2, 3⟩])
    (fun _ => .ok fun _ _ => ⟨.classical, 1, 1⟩) (fun _ => (⟨.classical, 0, 1⟩ : Iv ℚ)) 1 (fun _ => .error .exception) =
    .error .attributeError :=
  ((C40_vector_codes _ _ _ 1 _ _ _ rfl (by simp) rfl (by norm_num)).2
    ⟨⟨.classical, -1, 1⟩, by simp, by rw [Iv.mem_def]; norm_num⟩).2 one_pos

/-! ## C41 -/

/-- The binary search finds the first place whose key is not smaller. -/
theorem bisectGo_spec (keys : List K) (v : K) (hs : keys.Pairwise (· ≤ ·)) :
    ∀ (fuel lo hi : ℕ), hi - lo < fuel → lo ≤ hi → hi ≤ keys.length →
      (∀ (j : ℕ) (k : K), j < lo → keys[j]? = some k → k < v) →
      (∀ (j : ℕ) (k : K), hi ≤ j → keys[j]? = some k → v ≤ k) →
      bisectGo keys v fuel lo hi ≤ keys.length ∧
      (∀ (j : ℕ) (k : K), j < bisectGo keys v fuel lo hi → keys[j]? = some k → k < v) ∧
      (∀ (j : ℕ) (k : K), bisectGo keys v fuel lo hi ≤ j → keys[j]? = some k → v ≤ k) := by
  have mono : ∀ (i j : ℕ) (x y : K), i ≤ j → keys[i]? = some x → keys[j]? = some y → x ≤ y := by
    intro i j x y hij hi hj
    obtain ⟨hi', rfl⟩ := List.getElem?_eq_some_iff.mp hi
    obtain ⟨hj', rfl⟩ := List.getElem?_eq_some_iff.mp hj
    rcases hij.lt_or_eq with h | rfl
    · exact List.pairwise_iff_getElem.mp hs i j hi' hj' h
    · exact le_rfl
  intro fuel
  induction fuel with
  | zero => intro lo hi h; omega
  | succ fuel ih =>
    intro lo hi hf hlh hl h1 h2
    unfold bisectGo
    split_ifs with h3
    · dsimp only
      have hm : (lo + hi) / 2 < keys.length := by omega
      rw [List.getElem?_eq_getElem hm]
      dsimp only
      split_ifs with h4
      · refine ih _ _ (by omega) (by omega) hl (fun j k hj hk => ?_) h2
        exact (mono j ((lo + hi) / 2) k _ (by omega) hk (List.getElem?_eq_getElem hm)).trans_lt h4
      · refine ih _ _ (by omega) (by omega) (by omega) h1 (fun j k hj hk => ?_)
        exact (not_lt.mp h4).trans (mono ((lo + hi) / 2) j _ k hj (List.getElem?_eq_getElem hm) hk)
    · have : lo = hi := by omega
      subst this
      exact ⟨hl, h1, h2⟩

theorem bisectLeft_spec (keys : List K) (v : K) (hs : keys.Pairwise (· ≤ ·)) :
    bisectLeft keys v ≤ keys.length ∧
      (∀ (j : ℕ) (k : K), j < bisectLeft keys v → keys[j]? = some k → k < v) ∧
      (∀ (j : ℕ) (k : K), bisectLeft keys v ≤ j → keys[j]? = some k → v ≤ k) :=
  bisectGo_spec keys v hs _ _ _ (by omega) (by omega) le_rfl (fun j k hj => by omega) (fun j k hj hk => by
    rw [List.getElem?_eq_none hj] at hk; cases hk)

theorem pairwise_insertIdx (l : List K) (v : K) (i : ℕ) (hs : l.Pairwise (· ≤ ·)) (hi : i ≤ l.length)
    (h1 : ∀ (j : ℕ) (k : K), j < i → l[j]? = some k → k < v) (h2 : ∀ (j : ℕ) (k : K), i ≤ j → l[j]? = some k → v ≤ k) :
    (l.insertIdx i v).Pairwise (· ≤ ·) := by
  induction l generalizing i with
  | nil =>
    obtain rfl : i = 0 := by simpa using hi
    simp
  | cons a t ih =>
    rw [List.pairwise_cons] at hs
    cases i with
    | zero =>
      rw [List.insertIdx_zero, List.pairwise_cons]
      refine ⟨fun k hk => ?_, List.pairwise_cons.mpr hs⟩
      obtain ⟨j, hj⟩ := List.mem_iff_getElem?.mp hk
      exact h2 j k (by omega) hj
    | succ i =>
      rw [List.insertIdx_succ_cons, List.pairwise_cons]
      refine ⟨fun k hk => ?_, ih i hs.2 (by simpa using hi) (fun j k hj hk => ?_) (fun j k hj hk => ?_)⟩
      · rcases List.eq_or_mem_of_mem_insertIdx hk with rfl | hk
        · exact (h1 0 a (by omega) rfl).le
        · exact hs.1 k hk
      · exact h1 (j + 1) k (by omega) (by simpa using hk)
      · exact h2 (j + 1) k (by omega) (by simpa using hk)

theorem map_insertIdx' {α β : Type*} (f : α → β) (l : List α) (i : ℕ) (a : α) :
    (l.insertIdx i a).map f = (l.map f).insertIdx i (f a) := by
  induction l generalizing i with
  | nil => cases i <;> rfl
  | cons b t ih => cases i <;> simp [ih]

/-- Insertion keeps the list sorted and adds exactly the new entry. -/
theorem globInsert_spec {n : ℕ} (L : List ((Fin n → Iv K) × K)) (c : (Fin n → Iv K) × K)
    (hs : (L.map Prod.snd).Pairwise (· ≤ ·)) :
    ((globInsert L c).map Prod.snd).Pairwise (· ≤ ·) ∧ ∀ d, d ∈ globInsert L c ↔ d = c ∨ d ∈ L := by
  obtain ⟨h1, h2, h3⟩ := bisectLeft_spec (L.map Prod.snd) c.2 hs
  refine ⟨?_, fun d => ?_⟩
  · rw [globInsert, map_insertIdx']
    exact pairwise_insertIdx _ _ _ hs h1 h2 h3
  · rw [globInsert, List.mem_insertIdx]
    simpa using h1

/-- All components of a box are ordinary. -/
def OrdBox {n : ℕ} (Y : Fin n → Iv K) : Prop := ∀ i, Ordinary (Y i)

/-- `func` is an interval extension of `f : K^n → K` on the boxes inside `x0`. -/
def IsBoxExtension {n : ℕ} (func : (Fin n → Iv K) → Except Err (Iv K)) (f : (Fin n → K) → K) (x0 : Fin n → Iv K) :
    Prop :=
  ∀ Y F, OrdBox Y → (∀ i, Sub (Y i) (x0 i)) → func Y = .ok F → Ordinary F ∧ ∀ x, InVec x Y → f x ∈ F

/-- The invariant of the list of boxes. -/
structure GlobInv {n : ℕ} (G : K → Prop) (func : (Fin n → Iv K) → Except Err (Iv K)) (x0 : Fin n → Iv K)
    (L : List ((Fin n → Iv K) × K)) : Prop where
  sorted : (L.map Prod.snd).Pairwise (· ≤ ·)
  good : ∀ c ∈ L, OrdBox c.1 ∧ (∀ i, Sub (c.1 i) (x0 i)) ∧ (∀ i, G (c.1 i).a ∧ G (c.1 i).b) ∧
    ∃ F, func c.1 = .ok F ∧ c.2 = F.a
  cover : ∀ x, InVec x x0 → ∃ c ∈ L, InVec x c.1

theorem globStep_inv {n : ℕ} (R : Rnd K) (G : K → Prop) (hG : MidOK R G) (func : (Fin n → Iv K) → Except Err (Iv K))
    (x0 : Fin n → Iv K) (Y : Fin n → Iv K) (y : K) (rest L' : List ((Fin n → Iv K) × K))
    (hI : GlobInv G func x0 ((Y, y) :: rest)) (h : globStep R func ((Y, y) :: rest) Y = .ok L') :
    GlobInv G func x0 L' := by
  unfold globStep at h
  split at h
  · cases h
  rename_i l hl
  dsimp only at h
  split at h
  · cases h
  rename_i F1 hF1
  split at h
  · cases h
  rename_i F2 hF2
  cases h
  obtain ⟨oY, sY, gY, -⟩ := hI.good (Y, y) (by simp)
  have hmid := hG.mid_mem (Y l) (gY l).1 (gY l).2 (oY l).2
  rw [Iv.mem_def] at hmid
  have e1 : mkIv (Y l).a ((Y l).mid R) = ⟨.classical, (Y l).a, (Y l).mid R⟩ := by rw [mkIv, if_pos hmid.1]
  have e2 : mkIv ((Y l).mid R) (Y l).b = ⟨.classical, (Y l).mid R, (Y l).b⟩ := by rw [mkIv, if_pos hmid.2]
  set Y1 := Function.update Y l (mkIv (Y l).a ((Y l).mid R)) with hY1
  set Y2 := Function.update Y l (mkIv ((Y l).mid R) (Y l).b) with hY2
  have hs := hI.sorted
  simp only [List.map_cons, List.pairwise_cons] at hs
  obtain ⟨s1, m1⟩ := globInsert_spec rest (Y1, F1.a) hs.2
  obtain ⟨s2, m2⟩ := globInsert_spec _ (Y2, F2.a) s1
  have gm : G ((Y l).mid R) := hG.nr_mem _
  refine ⟨s2, fun c hc => ?_, fun x hx => ?_⟩
  · rw [m2, m1] at hc
    rcases hc with rfl | rfl | hc
    · refine ⟨fun i => ?_, fun i => ?_, fun i => ?_, F2, hF2, rfl⟩ <;> simp only [hY2, Function.update_apply] <;>
        split_ifs with hi
      · rw [e2]; exact ⟨rfl, hmid.2⟩
      · exact oY i
      · subst hi
        rw [e2]
        exact fun t ht => sY i t ⟨hmid.1.trans ht.1, ht.2⟩
      · exact sY i
      · subst hi; rw [e2]; exact ⟨gm, (gY i).2⟩
      · exact gY i
    · refine ⟨fun i => ?_, fun i => ?_, fun i => ?_, F1, hF1, rfl⟩ <;> simp only [hY1, Function.update_apply] <;>
        split_ifs with hi
      · rw [e1]; exact ⟨rfl, hmid.1⟩
      · exact oY i
      · subst hi
        rw [e1]
        exact fun t ht => sY i t ⟨ht.1, le_trans ht.2 hmid.2⟩
      · exact sY i
      · subst hi; rw [e1]; exact ⟨(gY i).1, gm⟩
      · exact gY i
    · exact hI.good c (by simp [hc])
  · obtain ⟨c, hc, hxc⟩ := hI.cover x hx
    rcases List.mem_cons.mp hc with rfl | hc
    · rcases le_total (x l) ((Y l).mid R) with h1 | h1
      · refine ⟨(Y1, F1.a), (m2 _).mpr (.inr ((m1 _).mpr (.inl rfl))), fun i => ?_⟩
        simp only [hY1, Function.update_apply]
        split_ifs with hi
        · subst hi; rw [e1]; exact ⟨(hxc i).1, h1⟩
        · exact hxc i
      · refine ⟨(Y2, F2.a), (m2 _).mpr (.inl rfl), fun i => ?_⟩
        simp only [hY2, Function.update_apply]
        split_ifs with hi
        · subst hi; rw [e2]; exact ⟨h1, (hxc i).2⟩
        · exact hxc i
    · exact ⟨c, (m2 _).mpr (.inr ((m1 _).mpr (.inr hc))), hxc⟩

theorem globLoop_inv {n : ℕ} (R : Rnd K) (G : K → Prop) (hG : MidOK R G) (func : (Fin n → Iv K) → Except Err (Iv K))
    (x0 : Fin n → Iv K) (tol : K) : ∀ (fuel : ℕ) (L L' : List ((Fin n → Iv K) × K)), GlobInv G func x0 L →
      globLoop R func tol fuel L = .ok L' → GlobInv G func x0 L' := by
  intro fuel
  induction fuel with
  | zero => intro L L' hI h; cases h; exact hI
  | succ fuel ih =>
    intro L L' hI h
    unfold globLoop at h
    split at h
    · cases h
    · rename_i Y y rest
      split at h
      · cases h
      · split_ifs at h
        · split at h
          · cases h
          · rename_i L'' hL''
            exact ih _ _ (globStep_inv R G hG func x0 Y y rest L'' hI hL'') h
        · cases h; exact hI

/-- C41: for a function `f` with interval extension `func`, any rounding, any tolerance and iteration limit: if
`globopt` returns `(Y, v)` then `Y` is a nonempty box inside `x0` and `v` encloses the global minimum: its lower end
is below every value of `f` on `x0`, and `f` takes a value not above its upper end. -/
theorem C41_globopt {n : ℕ} (R : Rnd K) (G : K → Prop) (hG : MidOK R G) (func : (Fin n → Iv K) → Except Err (Iv K))
    (f : (Fin n → K) → K) (x0 : Fin n → Iv K) (h0 : OrdBox x0) (g0 : ∀ i, G (x0 i).a ∧ G (x0 i).b)
    (hf : IsBoxExtension func f x0) (tol : K) (maxiter : ℤ) (Y : Fin n → Iv K) (v : Iv K)
    (h : globopt R func x0 tol maxiter = .ok (Y, v)) :
    OrdBox Y ∧ (∀ i, Sub (Y i) (x0 i)) ∧ (∀ x, InVec x x0 → v.a ≤ f x) ∧ (∃ x, InVec x x0 ∧ f x ≤ v.b) ∧
      ∀ x, InVec x x0 → (∀ x', InVec x' x0 → f x ≤ f x') → f x ∈ v := by
  suffices hmain : OrdBox Y ∧ (∀ i, Sub (Y i) (x0 i)) ∧ (∀ x, InVec x x0 → v.a ≤ f x) ∧
      (∃ x, InVec x x0 ∧ f x ≤ v.b) by
    obtain ⟨a1, a2, a3, x, a4, a5⟩ := hmain
    exact ⟨a1, a2, a3, ⟨x, a4, a5⟩, fun z hz hm => ⟨a3 z hz, (hm x a4).trans a5⟩⟩
  unfold globopt at h
  split at h
  · cases h
  rename_i F hF
  split at h
  · cases h
  · cases h
  · rename_i Y' y rest hL
    have hI := globLoop_inv R G hG func x0 tol _ [(x0, F.a)] _
      ⟨by simp, fun c hc => by
        obtain rfl := List.mem_singleton.mp hc
        exact ⟨h0, fun i t ht => ht, g0, F, hF, rfl⟩, fun x hx => ⟨_, List.mem_singleton.mpr rfl, hx⟩⟩ hL
    obtain ⟨oY, sY, -, FY, hFY, ey⟩ := hI.good _ List.mem_cons_self
    dsimp only at oY sY hFY ey
    rw [hFY] at h
    simp only [Except.map, Except.ok.injEq, Prod.mk.injEq] at h
    obtain ⟨rfl, rfl⟩ := h
    refine ⟨oY, sY, fun x hx => ?_, fun i => (Y' i).a, fun i => sY i _ ⟨le_refl _, (oY i).2⟩, ?_⟩
    · obtain ⟨c, hc, hxc⟩ := hI.cover x hx
      obtain ⟨oc, sc, -, Fc, hFc, ec⟩ := hI.good c hc
      have h1 := ((hf c.1 Fc oc sc hFc).2 x hxc).1
      have h2 : y ≤ c.2 := by
        have hs := hI.sorted
        simp only [List.map_cons, List.pairwise_cons] at hs
        rcases List.mem_cons.mp hc with rfl | hc
        · exact le_rfl
        · exact hs.1 _ (List.mem_map_of_mem hc)
      rw [← ey]
      rw [ec] at h2
      exact h2.trans h1
    · exact ((hf Y' FY oY sY hFY).2 _ fun i => ⟨le_refl _, (oY i).2⟩).2

/-- The natural extension of `x²` on boxes of one component, -/
def exSq (Y : Fin 1 → Iv ℚ) : Except Err (Iv ℚ) := .ok (Iv.powNat Rnd.exact (Y 0) 2)
/-- and the endpoints of the result. -/
def exGlob : Except Err ((Fin 1 → Iv ℚ) × Iv ℚ) → Option ((ℚ × ℚ) × (ℚ × ℚ))
  | .ok (Y, v) => some (((Y 0).a, (Y 0).b), (v.a, v.b))
  | .error _ => none

/-- The hypotheses hold for `x²` on `[-1, 3]`; the run bisects three times. -/
example : IsBoxExtension exSq (fun x => x 0 ^ 2) (fun _ => ⟨.classical, -1, 3⟩) ∧
    exGlob (globopt Rnd.exact exSq (fun _ => ⟨.classical, -1, 3⟩) (1 / 10) 2) = some ((0, 1/2), (0, 1/4)) := by
  refine ⟨fun Y F oY _ h => ?_, by decide +kernel⟩
  cases h
  obtain ⟨p1, p2⟩ := C06_pow_encloses Rnd.exact (Y 0) 2 (oY 0)
  exact ⟨p2, fun x hx => p1 _ ⟨x 0, hx 0, rfl⟩⟩

end IntvalPy
