import Verif.PropsKrawFloat
import Verif.PropsUnbounded

/-!
# C161: when a step of Krawczyk or HansenSengupta keeps the zero, infinite ends and overflow included
-/

set_option autoImplicit false
set_option linter.unusedSectionVars false

namespace IntvalPy
open FIv M

/-- Both ends are floats. -/
def Dbls (X : FIv) : Prop := ∃ d e, X.a = .dbl d ∧ X.b = .dbl e

theorem Dbls.ints {X : FIv} (h : Dbls X) (B : ℤ) : X.a.IntsLe B ∧ X.b.IntsLe B := by
  obtain ⟨d, e, h1, h2⟩ := h
  rw [h1, h2]
  exact ⟨trivial, trivial⟩

theorem store_dbl {x : M Num} {m : Mode} {v : Num} (h : ((store x) m).1 = .ok v) : ∃ d, v = .dbl d := by
  have : ∃ t, store x m = (.ok v, t) := ⟨_, by rw [← h]⟩
  obtain ⟨t, ht⟩ := this
  unfold store at ht
  obtain ⟨w, t', -, h2⟩ := bind_split ht
  have h3 := congrArg Prod.fst h2
  simp only [M.op] at h3
  cases hw : w.toDbl with
  | error e => rw [hw] at h3; cases h3
  | ok d => rw [hw] at h3; cases h3; exact ⟨d, rfl⟩

theorem two_dbls {p q : M Num} {k : Cls} {s s' : Mode} {Z : FIv}
    (h : (do
      let inf ← M.withRounding .down (store p)
      let sup ← M.withRounding .up (store q)
      pure (⟨k, inf, sup⟩ : FIv) : M FIv) s = (.ok Z, s')) : Dbls Z ∧ Z.cls = k := by
  rw [run_two (p := store p) (q := store q) (f := fun i j => (⟨k, i, j⟩ : FIv))] at h
  have h1 := congrArg Prod.fst h
  simp only at h1
  cases hp : (store p .down).1 with
  | error e => rw [hp] at h1; cases h1
  | ok v =>
    rw [hp] at h1
    simp only [Except.bind] at h1
    cases hq : (store q .up).1 with
    | error e => rw [hq] at h1; cases h1
    | ok w =>
      rw [hq] at h1
      cases h1
      obtain ⟨d, rfl⟩ := store_dbl hp
      obtain ⟨e, rfl⟩ := store_dbl hq
      exact ⟨⟨d, e, rfl, rfl⟩, rfl⟩

theorem add_dbls {X Y Z : FIv} {s s' : Mode} (cX : X.cls = .classical) (h : FIv.add X Y s = (.ok Z, s')) :
    Dbls Z ∧ Z.cls = Y.cls := by
  have := two_dbls h
  rw [cX] at this
  exact this

theorem sub_dbls {X Y Z : FIv} {s s' : Mode} (cX : X.cls = .classical) (h : FIv.sub X Y s = (.ok Z, s')) :
    Dbls Z ∧ Z.cls = Y.cls := by
  have := two_dbls h
  rw [cX] at this
  exact this

theorem rsub_dbls {c : Num} {X Z : FIv} {s s' : Mode} (h : FIv.rsub c X s = (.ok Z, s')) : Dbls Z ∧ Z.cls = X.cls :=
  two_dbls h

theorem rmul_dbls {c : Num} {X Z : FIv} {s s' : Mode} (cX : X.cls = .classical) (h : FIv.rmul c X s = (.ok Z, s')) :
    Dbls Z ∧ Z.cls = .classical := by
  unfold FIv.rmul at h
  rw [cX] at h
  exact two_dbls h

theorem mul_dbls {X Y Z : FIv} {s s' : Mode} (cX : X.cls = .classical) (cY : Y.cls = .classical)
    (h : FIv.mul X Y s = (.ok Z, s')) : Dbls Z ∧ Z.cls = .classical := by
  unfold FIv.mul at h
  rw [cX, cY] at h
  exact two_dbls h

/-- C161: a step of `Krawczyk` keeps a zero `z` of `f`, on intervals with infinite ends and with overflow to infinity in any
operation, if the centre is a finite number of the box, the factor `LAMBDA` is finite, and no product of zero and `-inf` is
formed from lower ends. -/
theorem C161_krawczyk_step_partial (func J : FIv → M FIv) (f : ℝ → ℝ) (X L Fc : FIv) (m lam : Num) (μ q : ℚ) (s : Mode) (z : ℝ)
    (cX : X.cls = .classical) (hX : X.a.IntsLe (2 ^ 26) ∧ X.b.IntsLe (2 ^ 26)) (hm : m.val = .fin μ) (im : m.IntsLe (2 ^ 26))
    (hJ : J X s = (.ok L, s)) (cL : L.cls = .classical) (iL : L.a.IntsLe (2 ^ 26) ∧ L.b.IntsLe (2 ^ 26))
    (hF : func ⟨.classical, m, m⟩ s = (.ok Fc, s)) (cF : Fc.cls = .classical) (iF : Fc.a.IntsLe (2 ^ 26) ∧ Fc.b.IntsLe (2 ^ 26))
    (hlam : lambdaN L s = (.ok lam, s)) (hq : lam.val = .fin q) (il : lam.IntsLe (2 ^ 26))
    (hz : X.Mem z) (hfz : f z = 0) (hfc : Fc.Mem (f μ)) (hslope : ∃ d : ℝ, L.Mem d ∧ f z - f μ = d * (z - μ))
    (n1 : ¬ (q = 0 ∧ L.a.val = .ninf)) (n2 : ¬ (q = 0 ∧ Fc.a.val = .ninf))
    (n3 : ∀ T B W, rmul lam L s = (.ok T, s) → rsub (.int 1) T s = (.ok B, s) →
      FIv.sub X ⟨.classical, m, m⟩ s = (.ok W, s) → ¬ ZeroAndNegInf B.a.val W.a.val) :
    ∃ Z, krawStepN func J X ⟨.classical, m, m⟩ s = (.ok Z, s) ∧ Z.Mem z ∧ Dbls Z ∧ Z.cls = .classical := by
  obtain ⟨d, hd, hsl⟩ := hslope
  have hcm : (⟨.classical, m, m⟩ : FIv).Mem (μ : ℝ) := by
    refine ⟨?_, ?_⟩
    · show m.val.Lower _
      rw [hm]; exact le_refl _
    · show m.val.Upper _
      rw [hm]; exact le_refl _
  have up : ∀ {n : Num}, n.IntsLe (2 ^ 26) → n.IntsLe (2 ^ 52) := fun h => h.mono (by norm_num)
  obtain ⟨T, eT, mT, -⟩ := C61_number_iff lam q L s cL hq il iL ⟨d, hd⟩
  obtain ⟨dT, cT⟩ := rmul_dbls cL eT
  have mT' := mT.2 n1 d hd
  obtain ⟨-, B, eB, mB⟩ := C05_float_sums_enclose T (.int 1) 1 s (dT.ints _) (by norm_num [Num.IntsLe]) (by simp [Num.val])
  obtain ⟨dB, cB⟩ := rsub_dbls eB
  have mB' := mB _ mT'
  obtain ⟨U, eU, mU, -⟩ := C61_number_iff lam q Fc s cF hq il iF ⟨_, hfc⟩
  obtain ⟨dU, cU⟩ := rmul_dbls cF eU
  have mU' := mU.2 n2 _ hfc
  obtain ⟨-, V, eV, mV⟩ := C01_float_encloses ⟨.classical, m, m⟩ U s ⟨up im, up im⟩ (dU.ints _)
  obtain ⟨dV, cV⟩ := sub_dbls rfl eV
  have mV' := mV _ _ hcm mU'
  obtain ⟨-, W, eW, mW⟩ := C01_float_encloses X ⟨.classical, m, m⟩ s ⟨up hX.1, up hX.2⟩ ⟨up im, up im⟩
  obtain ⟨dW, cW⟩ := sub_dbls cX eW
  have mW' := mW _ _ hz hcm
  obtain ⟨Y, eY, mY, -⟩ := C61_product_iff B W s (cB.trans cT) cW (dB.ints _) (dW.ints _) ⟨_, mB'⟩ ⟨_, mW'⟩
  obtain ⟨dY, cY⟩ := mul_dbls (cB.trans cT) cW eY
  have mY' := mY.2 (n3 T B W eT eB eW) _ _ mB' mW'
  obtain ⟨⟨Z, eZ, mZ⟩, -⟩ := C01_float_encloses V Y s (dV.ints _) (dY.ints _)
  obtain ⟨dZ, cZ⟩ := add_dbls (cV.trans cU) eZ
  refine ⟨Z, ?_, ?_, dZ, cZ.trans cY⟩
  · unfold krawStepN
    rw [run_bind_ok hJ, run_bind_ok hlam, run_bind_ok eT, run_bind_ok eB, run_bind_ok hF, run_bind_ok eU, run_bind_ok eV,
      run_bind_ok eW, run_bind_ok eY]
    exact eZ
  · have := mZ _ _ mV' mY'
    have e : (μ : ℝ) - q * f μ + (((1 : ℚ) : ℝ) - q * d) * (z - μ) = z := by
      rw [hfz] at hsl
      push_cast
      linear_combination q * hsl
    rwa [e] at this

/-- The hypotheses of the theorem with an unbounded derivative: `f = x - 3/2` on `[0, 7]`, slopes `[1, inf]`, so `LAMBDA = 0`; the
step returns the box. -/
example : lambdaN ⟨.classical, .int 1, .dbl .pinf⟩ .nearest = (.ok (.dbl (.fin 0)), .nearest) ∧
    (∀ T B W, rmul (.dbl (.fin 0)) ⟨.classical, .int 1, .dbl .pinf⟩ .nearest = (.ok T, .nearest) →
      rsub (.int 1) T .nearest = (.ok B, .nearest) →
      FIv.sub ⟨.classical, .int 0, .int 7⟩ ⟨.classical, .dbl (.fin (7 / 2)), .dbl (.fin (7 / 2))⟩ .nearest = (.ok W, .nearest) →
      ¬ ZeroAndNegInf B.a.val W.a.val) ∧
    (krawStepN (kfF (3 / 2)) (fun _ s => (.ok ⟨.classical, .int 1, .dbl .pinf⟩, s)) ⟨.classical, .int 0, .int 7⟩
      ⟨.classical, .dbl (.fin (7 / 2)), .dbl (.fin (7 / 2))⟩ .nearest).1 = .ok ⟨.classical, .dbl (.fin 0), .dbl (.fin 7)⟩ := by
  refine ⟨by decide +kernel, ?_, by decide +kernel⟩
  intro T B W h1 h2 h3
  have e1 : rmul (.dbl (.fin 0)) ⟨.classical, .int 1, .dbl .pinf⟩ .nearest =
    (.ok ⟨.classical, .dbl (.fin 0), .dbl (.fin 0)⟩, .nearest) := by decide +kernel
  rw [e1] at h1
  cases h1
  have e2 : rsub (.int 1) ⟨.classical, .dbl (.fin 0), .dbl (.fin 0)⟩ .nearest =
    (.ok ⟨.classical, .dbl (.fin 1), .dbl (.fin 1)⟩, .nearest) := by decide +kernel
  rw [e2] at h2
  cases h2
  rintro (⟨h, -⟩ | ⟨h, -⟩) <;> cases h

theorem contains_iff_mem (A : FIv) : A.containsNum (.int 0) = true ↔ A.Mem 0 := by
  show (Dbl.le A.a.val (.fin ((0 : ℤ) : ℚ)) && Dbl.le (.fin ((0 : ℤ) : ℚ)) A.b.val) = true ↔ A.a.val.Lower 0 ∧ A.b.val.Upper 0
  cases A.a.val <;> cases A.b.val <;> simp [Dbl.le, Dbl.Lower, Dbl.Upper]

theorem neg_val {n : Num} {q : ℚ} (h : n.val = .fin q) : n.neg.val = .fin (-q) := by
  cases n with
  | int w =>
    simp only [Num.val, Dbl.fin.injEq] at h
    simp [Num.neg, Num.val, ← h]
  | dbl d =>
    simp only [Num.val] at h
    subst h
    rfl

theorem neg_ints {n : Num} {B : ℤ} (h : n.IntsLe B) : n.neg.IntsLe B := by
  cases n with
  | int w => simpa [Num.neg, Num.IntsLe] using h
  | dbl d => trivial

/-- C161: a step of `HansenSengupta` raises, because the scaled derivative contains zero, or keeps a zero `z` of `f`, on
intervals with infinite ends and with overflow to infinity in any operation, if the centre is a finite number of the box, the
factor `LAMBDA` is finite, and neither zero times `-inf` nor `-inf / -inf` is formed from lower ends. -/
theorem C161_hansen_step_partial (func J : FIv → M FIv) (f : ℝ → ℝ) (X L Fc : FIv) (m lam : Num) (μ q : ℚ) (s : Mode) (z : ℝ)
    (hm : m.val = .fin μ) (im : m.IntsLe (2 ^ 26))
    (hJ : J X s = (.ok L, s)) (cL : L.cls = .classical) (iL : L.a.IntsLe (2 ^ 26) ∧ L.b.IntsLe (2 ^ 26))
    (hF : func ⟨.classical, m, m⟩ s = (.ok Fc, s)) (cF : Fc.cls = .classical) (iF : Fc.a.IntsLe (2 ^ 26) ∧ Fc.b.IntsLe (2 ^ 26))
    (hlam : lambdaN L s = (.ok lam, s)) (hq : lam.val = .fin q) (il : lam.IntsLe (2 ^ 26))
    (hfz : f z = 0) (hfc : Fc.Mem (f μ)) (hslope : ∃ d : ℝ, L.Mem d ∧ f z - f μ = d * (z - μ))
    (n1 : ¬ (q = 0 ∧ L.a.val = .ninf)) (n2 : ¬ (q = 0 ∧ Fc.a.val = .ninf))
    (n3 : ∀ A b, rmul lam L s = (.ok A, s) → rmul lam.neg Fc s = (.ok b, s) → ¬ (b.a.val = .ninf ∧ A.a.val = .ninf)) :
    hsStepN func J X ⟨.classical, m, m⟩ s = (.error .exception, s) ∨
    ∃ Z, hsStepN func J X ⟨.classical, m, m⟩ s = (.ok Z, s) ∧ Z.Mem z := by
  obtain ⟨d, hd, hsl⟩ := hslope
  have hcm : (⟨.classical, m, m⟩ : FIv).Mem (μ : ℝ) := by
    refine ⟨?_, ?_⟩
    · show m.val.Lower _
      rw [hm]; exact le_refl _
    · show m.val.Upper _
      rw [hm]; exact le_refl _
  have up : ∀ {n : Num}, n.IntsLe (2 ^ 26) → n.IntsLe (2 ^ 52) := fun h => h.mono (by norm_num)
  obtain ⟨A, eA, mA, -⟩ := C61_number_iff lam q L s cL hq il iL ⟨d, hd⟩
  obtain ⟨dA, cA⟩ := rmul_dbls cL eA
  have mA' := mA.2 n1 d hd
  obtain ⟨b, eb, mb, -⟩ := C61_number_iff lam.neg (-q) Fc s cF (neg_val hq) (neg_ints il) iF ⟨_, hfc⟩
  obtain ⟨db, cb⟩ := rmul_dbls cF eb
  have mb' := mb.2 (by rw [neg_eq_zero]; exact n2) _ hfc
  have run : ∀ r, (if A.containsNum (.int 0) then raise .exception else do
      let G ← FIv.div b A
      FIv.add ⟨.classical, m, m⟩ G : M FIv) s = r → hsStepN func J X ⟨.classical, m, m⟩ s = r := by
    intro r hr
    unfold hsStepN
    rw [run_bind_ok hJ, run_bind_ok hlam, run_bind_ok eA, run_bind_ok hF, run_bind_ok eb]
    exact hr
  by_cases h0 : A.Mem 0
  · left
    refine run _ ?_
    rw [if_pos ((contains_iff_mem A).2 h0)]
    rfl
  · right
    obtain ⟨-, hdiv⟩ := C135_quotient_iff b A s cb cA (db.ints _) (dA.ints _) ⟨_, mb'⟩ ⟨_, mA'⟩
    obtain ⟨G, eG, mG, -⟩ := hdiv h0
    have mG' := mG.2 (n3 A b eA eb) _ _ mb' mA'
    have dG : Dbls G := by
      have hd := eG
      unfold FIv.div at hd
      rw [if_neg (by rw [show A.containsNum (.dbl (.fin 0)) = A.containsNum (.int 0) from by simp [FIv.containsNum, Num.le, Num.val], contains_iff_mem]; exact h0)] at hd
      rw [cb, cA] at hd
      exact (two_dbls hd).1
    obtain ⟨⟨Z, eZ, mZ⟩, -⟩ := C01_float_encloses ⟨.classical, m, m⟩ G s ⟨up im, up im⟩ (dG.ints _)
    refine ⟨Z, run _ ?_, ?_⟩
    · rw [if_neg (by rw [contains_iff_mem]; exact h0), run_bind_ok eG]
      exact eZ
    · have hne : (q : ℝ) * d ≠ 0 := fun e => h0 (by rw [e] at mA'; exact mA')
      have := mZ _ _ hcm mG'
      have e : (μ : ℝ) + ((-q : ℚ) : ℝ) * f μ / (q * d) = z := by
        rw [hfz] at hsl
        have h2 : ((-q : ℚ) : ℝ) * f μ = (q * d) * (z - μ) := by push_cast; linear_combination q * hsl
        rw [h2, mul_div_cancel_left₀ _ hne]
        ring
      rwa [e] at this

/-- A step with an infinite slope bound: `f = x - 3/2`, slopes `[1, inf]`: `LAMBDA = 0`, the scaled derivative is `[0, 0]` and
`HansenSengupta` raises; with slopes `[1/2, 3/2]` the step returns an interval around `7/2 - 2 / [1/2, 3/2]`. -/
example : (hsStepN (kfF (3 / 2)) (fun _ s => (.ok ⟨.classical, .int 1, .dbl .pinf⟩, s)) ⟨.classical, .int 0, .int 7⟩
      ⟨.classical, .dbl (.fin (7 / 2)), .dbl (.fin (7 / 2))⟩ .nearest).1 = .error .exception ∧
    (hsStepN (kfF (3 / 2)) (fun _ s => (.ok ⟨.classical, .dbl (.fin (1 / 2)), .dbl (.fin (3 / 2))⟩, s)) ⟨.classical, .int 0, .int 7⟩
      ⟨.classical, .dbl (.fin (7 / 2)), .dbl (.fin (7 / 2))⟩ .nearest).1 =
      .ok ⟨.classical, .dbl (.fin (-1 / 2)), .dbl (.fin (2439449798159019 / 2 ^ 50))⟩ := by
  decide +kernel

end IntvalPy
