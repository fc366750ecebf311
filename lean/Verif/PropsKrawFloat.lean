import Verif.ModelKrawFloat
import Verif.PropsInter
import Verif.PropsFloatEnc
import Verif.PropsElem
import Verif.PropsDistF

/-!
# Krawczyk and HansenSengupta on unbounded and very wide intervals (C161)
-/

set_option autoImplicit false
set_option linter.unusedSectionVars false

namespace IntvalPy
open FIv M

/-! ## Specification -/

/-- The computed function encloses `f` on intervals: every value at a point of the argument is in the result. -/
def EnclosesF (func : FIv → M FIv) (f : ℝ → ℝ) : Prop :=
  ∀ (X Y : FIv) (s s' : Mode), X.a.IntsLe (2 ^ 52) → X.b.IntsLe (2 ^ 52) → func X s = (.ok Y, s') → ∀ x, X.Mem x → Y.Mem (f x)

/-- The computed interval contains all slopes of `f` on the argument. -/
def EnclosesSlopes (J : FIv → M FIv) (f : ℝ → ℝ) : Prop :=
  ∀ (X L : FIv) (s s' : Mode), X.a.IntsLe (2 ^ 52) → X.b.IntsLe (2 ^ 52) → J X s = (.ok L, s') → ∀ x y, X.Mem x → X.Mem y → ∃ d : ℝ, L.Mem d ∧ f x - f y = d * (x - y)

/-- C161 as stated in properties.jsonl: what `Krawczyk` and `HansenSengupta` return contains every zero of `x0`. -/
def C161_statement : Prop := ∀ (func J : FIv → M FIv) (f : ℝ → ℝ), EnclosesF func f → EnclosesSlopes J f →
  ∀ (x0 Y : FIv) (maxiter : ℤ) (tol : Num), x0.a.Valid → x0.b.Valid →
    x0.a.IntsLe (2 ^ 52) → x0.b.IntsLe (2 ^ 52) →
    ((krawczykN func J x0 maxiter tol .nearest).1 = .ok Y ∨ (hansenN func J x0 maxiter tol .nearest).1 = .ok Y) →
    ∀ z : ℝ, x0.Mem z → f z = 0 → Y.Mem z

/-! ## The loop keeps what the step keeps -/

theorem isnanF_mem {Y : FIv} {z : ℝ} (h : Y.Mem z) : isnanF Y ≠ .ok true := by
  intro hc
  unfold isnanF at hc
  have conv : ∀ {n : Num}, n.toDbl = .ok .nan → n.val = .nan := by
    intro n hn
    cases n with
    | dbl d => simpa [Num.toDbl, Num.val] using hn
    | int w =>
      simp only [Num.toDbl] at hn
      split at hn <;> cases hn
  split at hc
  · cases hc
  · rename_i e; exact absurd (conv e) (lower_ne_nan h.1)
  · split at hc
    · cases hc
    · rename_i e; exact absurd (conv e) (upper_ne_nan h.2)
    · cases hc

theorem bind_split {α β : Type} {x : M α} {f : α → M β} {s s' : Mode} {b : β} (h : (x >>= f) s = (.ok b, s')) :
    ∃ a t, x s = (.ok a, t) ∧ f a t = (.ok b, s') := by
  rw [run_bind] at h
  cases hx : x s with
  | mk r t =>
    rw [hx] at h
    cases r with
    | ok a => exact ⟨a, t, rfl, h⟩
    | error e => cases h

/-- Is another pass made? -/
def nlFarN (tol : Num) (err : Option Num) : Bool := match err with | none => true | some e => tol.lt e

theorem nlLoopN_succ (step : FIv → FIv → M FIv) (tol : Num) (k : ℕ) (X c : FIv) (err : Option Num) :
    nlLoopN step tol (k + 1) X c err = if nlFarN tol err then (do
        let Z ← step X c
        let Y ← X.intersect Z
        let bad ← op fun _ => isnanF Y
        if bad then return Y
        else do
          let c' ← centreN Y
          let e ← FIv.dist Y X
          nlLoopN step tol k Y c' (some e)) else return X := rfl

/-- The loop of both functions keeps a number that every step keeps: neither the intersection nor the test for NaN
loses it, whatever the ends are. -/
theorem nlLoopN_mem (step : FIv → FIv → M FIv) (tol : Num) (z : ℝ)
    (hstep : ∀ X c s s' Z, X.Mem z → X.a.Valid → X.b.Valid → step X c s = (.ok Z, s') →
      Z.Mem z ∧ Z.a.Valid ∧ Z.b.Valid) :
    ∀ (fuel : ℕ) (X c : FIv) (err : Option Num) (s s' : Mode) (Y : FIv), X.Mem z → X.a.Valid → X.b.Valid →
      nlLoopN step tol fuel X c err s = (.ok Y, s') → Y.Mem z ∧ Y.a.Valid ∧ Y.b.Valid := by
  intro fuel
  induction fuel with
  | zero =>
    intro X c err s s' Y hX h1 h2 h
    cases h
    exact ⟨hX, h1, h2⟩
  | succ k ih =>
    intro X c err s s' Y hX h1 h2 h
    rw [nlLoopN_succ] at h
    cases hfar : nlFarN tol err with
    | false =>
      rw [hfar] at h
      cases h
      exact ⟨hX, h1, h2⟩
    | true =>
      rw [hfar, if_pos rfl] at h
      obtain ⟨Z, t, e1, h⟩ := bind_split h
      obtain ⟨hZ, v1, v2⟩ := hstep X c s t Z hX h1 h2 e1
      obtain ⟨W, t2, e2, h⟩ := bind_split h
      have hc := (C23_float_common X Z h1 h2 v1 v2 t z hX hZ).1
      rcases hc with hc | ⟨W', hW, -, hm, ha, hb⟩
      · rw [hc] at e2; cases e2
      · rw [hW] at e2
        cases e2
        have hWz : W.Mem z := (hm z).2 ⟨hX, hZ⟩
        have wa : W.a.Valid := by rcases ha with ha | ha <;> rw [ha] <;> assumption
        have wb : W.b.Valid := by rcases hb with hb | hb <;> rw [hb] <;> assumption
        obtain ⟨bad, t3, e3, h⟩ := bind_split h
        have hbad : bad = false := by
          cases bad with
          | false => rfl
          | true => exact absurd (congrArg Prod.fst e3) (isnanF_mem hWz)
        subst hbad
        simp only [Bool.false_eq_true, if_false] at h
        obtain ⟨c', t4, -, h⟩ := bind_split h
        obtain ⟨e, t5, -, h⟩ := bind_split h
        exact ih W c' (some e) t5 s' Y hWz wa wb h

/-- C161, the part that holds for all ends, infinite ones included: if no step loses the zero `z`, the returned interval
contains it; NaN is then never returned. -/
theorem C161_partial (func : FIv → M FIv) (step : FIv → FIv → M FIv) (x0 Y : FIv) (passes : ℕ) (tol : Num) (s s' : Mode)
    (z : ℝ) (hz : x0.Mem z) (h1 : x0.a.Valid) (h2 : x0.b.Valid)
    (hstep : ∀ X c s s' Z, X.Mem z → X.a.Valid → X.b.Valid → step X c s = (.ok Z, s') →
      Z.Mem z ∧ Z.a.Valid ∧ Z.b.Valid)
    (h : nlMainN func step x0 passes tol s = (.ok Y, s')) : Y.Mem z := by
  unfold nlMainN at h
  obtain ⟨F, t, -, h⟩ := bind_split h
  split at h
  · obtain ⟨c, t2, -, h⟩ := bind_split h
    exact (nlLoopN_mem step tol z hstep passes x0 c none t2 s' Y hz h1 h2 h).1
  · cases h

/-- C161: an interval without zeros is refused before the first pass: if the computed `func(x0)` does not contain zero
both functions raise. -/
theorem C161_refuses (func : FIv → M FIv) (step : FIv → FIv → M FIv) (x0 F : FIv) (passes : ℕ) (tol : Num) (s t : Mode)
    (hF : func x0 s = (.ok F, t)) (h0 : F.containsNum (.int 0) = false) :
    nlMainN func step x0 passes tol s = (.error .exception, t) := by
  unfold nlMainN
  rw [run_bind, hF]
  simp only [h0, Bool.false_eq_true, if_false]
  rfl

/-- A step for `x - 3/2` that is right on unbounded intervals: it always returns `[1, 2]`. -/
def kfGood (_ _ : FIv) : M FIv := fun s => (.ok ⟨.classical, .int 1, .int 2⟩, s)

/-- The hypotheses of `C161_partial` hold for `x0 = [0, inf]`, `z = 3/2` and the step `kfGood`; the run ends with `[1, 2]`. -/
example : (∀ X c s s' Z, X.Mem (3 / 2) → X.a.Valid → X.b.Valid → kfGood X c s = (.ok Z, s') →
      Z.Mem (3 / 2) ∧ Z.a.Valid ∧ Z.b.Valid) ∧
    (nlMainN (fun X => FIv.subNum X (.dbl (.fin (3 / 2)))) kfGood ⟨.classical, .int 0, .dbl .pinf⟩ 4 (.dbl (.fin 0)) .nearest).1 =
      .ok ⟨.classical, .int 1, .int 2⟩ := by
  refine ⟨?_, by decide +kernel⟩
  intro X c s s' Z _ _ _ h
  cases h
  refine ⟨⟨?_, ?_⟩, trivial, trivial⟩
  · show (((1 : ℤ) : ℚ) : ℝ) ≤ 3 / 2
    norm_num
  · show (3 / 2 : ℝ) ≤ (((2 : ℤ) : ℚ) : ℝ)
    norm_num

/-! ## Unbounded intervals -/

/-- `x - r`. -/
def kfF (r : ℚ) (X : FIv) : M FIv := FIv.subNum X (.dbl (.fin r))

/-- The derivative of `x - r`. -/
def kfJ (_ : FIv) : M FIv := fun s => (.ok ⟨.classical, .int 1, .int 1⟩, s)

theorem kf_lambda : lambdaN ⟨.classical, .int 1, .int 1⟩ .nearest = (.ok (.dbl (.fin 1)), .nearest) := by decide +kernel

theorem kf_prod : rmul (.dbl (.fin 1)) ⟨.classical, .int 1, .int 1⟩ .nearest =
    (.ok ⟨.classical, .dbl (.fin 1), .dbl (.fin 1)⟩, .nearest) := by decide +kernel

theorem kf_B : rsub (.int 1) ⟨.classical, .dbl (.fin 1), .dbl (.fin 1)⟩ .nearest =
    (.ok ⟨.classical, .dbl (.fin 0), .dbl (.fin 0)⟩, .nearest) := by decide +kernel

/-- The value of `x - r` at the infinite centre. -/
theorem kf_Fc (r : ℚ) : kfF r ⟨.classical, .dbl .pinf, .dbl .pinf⟩ .nearest =
    (.ok ⟨.classical, .dbl .pinf, .dbl .pinf⟩, .nearest) := rfl

theorem kf_U : rmul (.dbl (.fin 1)) ⟨.classical, .dbl .pinf, .dbl .pinf⟩ .nearest =
    (.ok ⟨.classical, .dbl .pinf, .dbl .pinf⟩, .nearest) := by decide +kernel

theorem kf_kraw_step (a r : ℚ) : krawStepN (kfF r) kfJ ⟨.classical, .dbl (.fin a), .dbl .pinf⟩
    ⟨.classical, .dbl .pinf, .dbl .pinf⟩ .nearest = (.ok ⟨.classical, .dbl .nan, .dbl .nan⟩, .nearest) := by
  unfold krawStepN
  rw [run_bind]
  simp only [kfJ]
  rw [run_bind, kf_lambda]
  simp only
  rw [run_bind, kf_prod]
  simp only
  rw [run_bind, kf_B]
  simp only
  rw [run_bind, kf_Fc]
  simp only
  rw [run_bind, kf_U]
  simp only
  have e : FIv.sub ⟨.classical, .dbl (.fin a), .dbl .pinf⟩ ⟨.classical, .dbl .pinf, .dbl .pinf⟩ .nearest =
      (.ok ⟨.classical, .dbl .ninf, .dbl .nan⟩, .nearest) := rfl
  rw [run_bind, show FIv.sub ⟨.classical, .dbl .pinf, .dbl .pinf⟩ ⟨.classical, .dbl .pinf, .dbl .pinf⟩ .nearest =
      (.ok ⟨.classical, .dbl .nan, .dbl .nan⟩, .nearest) from rfl]
  simp only
  rw [run_bind, e]
  decide +kernel

theorem kf_hs_step (X : FIv) (r : ℚ) : hsStepN (kfF r) kfJ X
    ⟨.classical, .dbl .pinf, .dbl .pinf⟩ .nearest = (.ok ⟨.classical, .dbl .nan, .dbl .nan⟩, .nearest) := by
  unfold hsStepN
  rw [run_bind]
  simp only [kfJ]
  rw [run_bind, kf_lambda]
  simp only
  rw [run_bind, kf_prod]
  simp only
  rw [run_bind, kf_Fc]
  decide +kernel

theorem kf_loop (step : FIv → FIv → M FIv) (tol : Num) (k : ℕ) (a : ℚ)
    (h : step ⟨.classical, .dbl (.fin a), .dbl .pinf⟩ ⟨.classical, .dbl .pinf, .dbl .pinf⟩ .nearest =
      (.ok ⟨.classical, .dbl .nan, .dbl .nan⟩, .nearest)) :
    nlLoopN step tol (k + 1) ⟨.classical, .dbl (.fin a), .dbl .pinf⟩ ⟨.classical, .dbl .pinf, .dbl .pinf⟩ none .nearest =
      (.ok ⟨.classical, .dbl .nan, .dbl .nan⟩, .nearest) := by
  rw [nlLoopN_succ, if_pos (show nlFarN tol none = true from rfl), run_bind, h]
  rfl

theorem kf_contains {Z : FIv} (h : Z.Mem 0) : Z.containsNum (.int 0) = true := by
  have h1 : Z.a.le (.int 0) = true := Dbl.le_of_bounds (x := 0) h.1 (show (0 : ℝ) ≤ (((0 : ℤ) : ℚ) : ℝ) by norm_num)
  have h2 : (Num.int 0).le Z.b = true := Dbl.le_of_bounds (x := 0) (show (((0 : ℤ) : ℚ) : ℝ) ≤ (0 : ℝ) by norm_num) h.2
  rw [FIv.containsNum, h1, h2]
  rfl

theorem kf_centre (a : ℚ) : centreN ⟨.classical, .dbl (.fin a), .dbl .pinf⟩ .nearest =
    (.ok ⟨.classical, .dbl .pinf, .dbl .pinf⟩, .nearest) := by
  unfold centreN
  rw [run_bind_ok (a := .dbl .pinf)]
  · rfl
  · refine run_op_ok ?_
    unfold FIv.midN
    rw [show Num.add .nearest (.dbl .pinf) (.dbl (.fin a)) = .ok (.dbl .pinf) from rfl]
    decide +kernel

theorem kf_main (step : FIv → FIv → M FIv) (tol : Num) (k : ℕ) (a r : ℚ) (har : a ≤ r)
    (h : step ⟨.classical, .dbl (.fin a), .dbl .pinf⟩ ⟨.classical, .dbl .pinf, .dbl .pinf⟩ .nearest =
      (.ok ⟨.classical, .dbl .nan, .dbl .nan⟩, .nearest)) :
    nlMainN (kfF r) step ⟨.classical, .dbl (.fin a), .dbl .pinf⟩ (k + 1) tol .nearest =
      (.ok ⟨.classical, .dbl .nan, .dbl .nan⟩, .nearest) := by
  obtain ⟨⟨Z, hZ, hm⟩, -⟩ := C05_float_sums_enclose ⟨.classical, .dbl (.fin a), .dbl .pinf⟩ (.dbl (.fin (-r))) (-r) .nearest
    ⟨trivial, trivial⟩ trivial rfl
  have h0 : Z.Mem 0 := by
    have := hm (r : ℝ) ⟨show ((a : ℚ) : ℝ) ≤ r by exact_mod_cast har, trivial⟩
    simpa using this
  unfold nlMainN
  rw [run_bind, show kfF r ⟨.classical, .dbl (.fin a), .dbl .pinf⟩ .nearest = (.ok Z, .nearest) from hZ]
  simp only [kf_contains h0, if_true]
  rw [run_bind, kf_centre]
  exact kf_loop step tol k a h

/-- C161: on an interval `[a, inf]` both functions lose the zero `r` of `x - r`: the midpoint is infinite,
`c - f(c)` is NaN, and NaN, the answer "no zeros", is returned, for every `a ≤ r`, number of passes and tolerance. -/
theorem C161_unbounded_false (a r : ℚ) (har : a ≤ r) (k : ℕ) (tol : Num) :
    krawczykN (kfF r) kfJ ⟨.classical, .dbl (.fin a), .dbl .pinf⟩ k tol .nearest =
      (.ok ⟨.classical, .dbl .nan, .dbl .nan⟩, .nearest) ∧
    hansenN (kfF r) kfJ ⟨.classical, .dbl (.fin a), .dbl .pinf⟩ (k + 1) tol .nearest =
      (.ok ⟨.classical, .dbl .nan, .dbl .nan⟩, .nearest) := by
  unfold krawczykN hansenN
  have e : ((k : ℤ) + 1).toNat = k + 1 := by omega
  rw [e]
  exact ⟨kf_main _ tol k a r har (kf_kraw_step a r), kf_main _ tol k a r har (kf_hs_step _ r)⟩

theorem kf_encloses (r : ℚ) : EnclosesF (kfF r) (fun x => x - r) := by
  intro X Y s s' h1 h2 h x hx
  obtain ⟨⟨Z, hZ, hm⟩, -⟩ := C05_float_sums_enclose X (.dbl (.fin (-r))) (-r) s ⟨h1, h2⟩ trivial rfl
  have h' : FIv.radd (.dbl (.fin (-r))) X s = (.ok Y, s') := h
  rw [hZ] at h'
  cases h'
  have := hm x hx
  show Y.Mem (x - r)
  rw [sub_eq_neg_add]
  simpa using this

theorem kf_slopes (r : ℚ) : EnclosesSlopes kfJ (fun x => x - r) := by
  intro X L s s' _ _ h x y _ _
  cases h
  refine ⟨1, ⟨?_, ?_⟩, by ring⟩
  · show ((_ : ℚ) : ℝ) ≤ 1
    norm_num
  · show (1 : ℝ) ≤ ((_ : ℚ) : ℝ)
    norm_num

/-- C161 fails on an interval with two finite ends whose sum overflows: `[1e308, 1.7e308]` and `x - 1.5e308`. -/
theorem C161_overflow_false :
    let x0 : FIv := ⟨.classical, .dbl (round .nearest (10 ^ 308)), .dbl (round .nearest (17 * 10 ^ 307))⟩
    let r := nearTo (15 * 10 ^ 307)
    (krawczykN (kfF r) kfJ x0 1 (.dbl (.fin 0)) .nearest).1 = .ok ⟨.classical, .dbl .nan, .dbl .nan⟩ ∧
    (hansenN (kfF r) kfJ x0 1 (.dbl (.fin 0)) .nearest).1 = .ok ⟨.classical, .dbl .nan, .dbl .nan⟩ ∧
    x0.a.le (.dbl (.fin r)) = true ∧ (Num.dbl (.fin r)).le x0.b = true := by
  decide +kernel

/-- C161 is false of the code. -/
theorem C161_false : ¬ C161_statement := by
  intro h
  have h1 := h (kfF 1) kfJ (fun x => x - (1 : ℚ)) (kf_encloses 1) (kf_slopes 1) ⟨.classical, .dbl (.fin 0), .dbl .pinf⟩
    ⟨.classical, .dbl .nan, .dbl .nan⟩ 0 (.dbl (.fin 0)) ⟨isF_zero, by simpa using maxFin_pos.le⟩ trivial trivial trivial
    (Or.inl (congrArg Prod.fst (C161_unbounded_false 0 1 (by norm_num) 0 (.dbl (.fin 0))).1)) 1
    ⟨show (((0 : ℚ)) : ℝ) ≤ 1 by norm_num, trivial⟩ (by norm_num)
  exact h1.1

/-- A bounded interval: the zero `3/2` of `x - 3/2` is found from `[0, 7]` by both functions; an interval without zeros is
refused. -/
example : (krawczykN (kfF (3 / 2)) kfJ ⟨.classical, .int 0, .int 7⟩ 5 (.dbl (.fin 0)) .nearest).1 =
      .ok ⟨.classical, .dbl (.fin (3 / 2)), .dbl (.fin (3 / 2))⟩ ∧
    (hansenN (kfF (3 / 2)) kfJ ⟨.classical, .int 0, .int 7⟩ 5 (.dbl (.fin 0)) .nearest).1 =
      .ok ⟨.classical, .dbl (.fin (3 / 2)), .dbl (.fin (3 / 2))⟩ ∧
    (krawczykN (kfF (3 / 2)) kfJ ⟨.classical, .int 2, .int 7⟩ 5 (.dbl (.fin 0)) .nearest).1 = .error .exception := by
  decide +kernel

/-- `x * x - 2`. -/
def kfF2 (X : FIv) : M FIv := do
  let Y ← FIv.mul X X
  FIv.subNum Y (.int 2)

/-- Its derivative `2 x`. -/
def kfJ2 (X : FIv) : M FIv := rmul (.int 2) X

/-- Runs for `x * x - 2` on `[1, 2]`: one and two passes, a stop by the tolerance, and the exception of `HansenSengupta` for a
derivative with zero. -/
example : (krawczykN kfF2 kfJ2 ⟨.classical, .int 1, .int 2⟩ 0 (.dbl (.fin 0)) .nearest).1 =
      .ok ⟨.classical, .dbl (.fin (5629499534213119 / 2 ^ 52)), .dbl (.fin (3565349705001643 / 2 ^ 51))⟩ ∧
    (krawczykN kfF2 kfJ2 ⟨.classical, .int 1, .int 2⟩ 1 (.dbl (.fin 0)) .nearest).1 =
      .ok ⟨.classical, .dbl (.fin (6280755362680911 / 2 ^ 52)), .dbl (.fin (6457367112773875 / 2 ^ 52))⟩ ∧
    (krawczykN kfF2 kfJ2 ⟨.classical, .int 1, .int 2⟩ 1 (.dbl (.fin 1)) .nearest).1 =
      .ok ⟨.classical, .dbl (.fin (5629499534213119 / 2 ^ 52)), .dbl (.fin (3565349705001643 / 2 ^ 51))⟩ ∧
    (hansenN kfF2 kfJ2 ⟨.classical, .int 1, .int 2⟩ 1 (.dbl (.fin 0)) .nearest).1 =
      .ok ⟨.classical, .dbl (.fin (11 / 8)), .dbl (.fin (23 / 16))⟩ ∧
    (hansenN kfF2 kfJ2 ⟨.classical, .int 1, .int 2⟩ 2 (.dbl (.fin 0)) .nearest).1 =
      .ok ⟨.classical, .dbl (.fin (6368371348078591 / 2 ^ 52)), .dbl (.fin (3184985318859497 / 2 ^ 51))⟩ ∧
    (hansenN kfF2 kfJ2 ⟨.classical, .int (-1), .int 2⟩ 2 (.dbl (.fin 0)) .nearest).1 = .error .exception := by
  decide +kernel

end IntvalPy
