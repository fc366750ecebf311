import Verif.PropsPowIv
import Verif.PropsExpExact
import Verif.PropsUnbounded

/-!
# Powers with an interval exponent of a base that touches zero (C133)
-/

set_option autoImplicit false
set_option linter.unusedSectionVars false

namespace IntvalPy
open M FIv

/-- A number below arbitrarily small reals is `-inf`. -/
theorem ninf_of_lower {d : Dbl} (h : ∀ B : ℝ, ∃ x, x ≤ B ∧ d.Lower x) : d = .ninf := by
  cases d with
  | fin q =>
    obtain ⟨x, h1, h2⟩ := h ((q : ℝ) - 1)
    have : (q : ℝ) ≤ x := h2
    linarith
  | ninf => rfl
  | pinf => obtain ⟨x, -, h2⟩ := h 0; exact h2.elim
  | nan => obtain ⟨x, -, h2⟩ := h 0; exact h2.elim

/-- A number above arbitrarily large reals is `inf`. -/
theorem pinf_of_upper {d : Dbl} (h : ∀ B : ℝ, ∃ x, B ≤ x ∧ d.Upper x) : d = .pinf := by
  cases d with
  | fin q =>
    obtain ⟨x, h1, h2⟩ := h ((q : ℝ) + 1)
    have : x ≤ (q : ℝ) := h2
    linarith
  | pinf => rfl
  | ninf => obtain ⟨x, -, h2⟩ := h 0; exact h2.elim
  | nan => obtain ⟨x, -, h2⟩ := h 0; exact h2.elim

/-- `exp` of an interval of doubles without upper bound. -/
theorem exp_unbounded {lm : Libm} (hexp : ExpOK lm.exp) {u : Dbl} {s : Mode} {Z : FIv}
    (hZ : FIv.exp lm ⟨.classical, .dbl u, .dbl .pinf⟩ s = (.ok Z, s)) :
    Z = ⟨.classical, .dbl .pinf, .dbl .pinf⟩ ∨ Z.b = .dbl (.fin maxFin) := by
  have call : (∃ p, toD (lm.exp s (.dbl u)) = .ok p) ∨ lm.exp s (.dbl u) = .error .overflowError := by
    cases u with
    | fin q =>
      rcases hexp.fin s (.dbl (.fin q)) q trivial rfl with ⟨y, h1, _⟩ | ⟨h1, _⟩
      · exact Or.inl ⟨.fin y, by rw [h1]; rfl⟩
      · exact Or.inr h1
    | ninf => left; rw [hexp.ninf]; exact ⟨_, rfl⟩
    | pinf => left; rw [hexp.pinf]; exact ⟨_, rfl⟩
    | nan => left; rw [hexp.nan]; exact ⟨_, rfl⟩
  rcases call with ⟨p, hp'⟩ | hov
  · rw [exp_run (X := ⟨.classical, .dbl u, .dbl .pinf⟩) hp' (q := .pinf) (by rw [hexp.pinf]; rfl)] at hZ
    cases hZ
    exact Or.inr rfl
  · rw [exp_overflow (X := ⟨.classical, .dbl u, .dbl .pinf⟩) (Or.inl hov)] at hZ
    cases hZ
    exact Or.inl rfl

/-- The negative powers of small positive numbers exceed the largest double. -/
theorem power_lost {X Z : FIv} {t c : ℚ} (hZb : Z = ⟨.classical, .dbl .pinf, .dbl .pinf⟩ ∨ Z.b = .dbl (.fin maxFin))
    (ha : X.a.val = .fin 0) (hb : X.b.val = .fin t) (ht' : (0 : ℝ) < t) (hc' : (c : ℝ) < 0) :
    ∃ x : ℝ, 0 < x ∧ X.Mem x ∧ ¬ Z.Mem (x ^ (c : ℝ)) := by
  set x : ℝ := min t (Real.exp (2 ^ 1024 / c)) with hx
  have hx0 : 0 < x := lt_min ht' (Real.exp_pos _)
  refine ⟨x, hx0, ⟨by rw [ha]; show ((0 : ℚ) : ℝ) ≤ x; simpa using hx0.le, by rw [hb]; exact min_le_left _ _⟩, ?_⟩
  intro hm
  rcases hZb with rfl | hb'
  · exact hm.1
  · have h2 := hm.2
    rw [hb'] at h2
    have h3 : x ^ (c : ℝ) ≤ ((maxFin : ℚ) : ℝ) := h2
    rw [Real.rpow_def_of_pos hx0] at h3
    have h4 : Real.log x ≤ 2 ^ 1024 / c := by
      have := Real.log_le_log hx0 (min_le_right (t : ℝ) (Real.exp (2 ^ 1024 / c)))
      rwa [Real.log_exp] at this
    have h5 := mul_le_mul_of_nonpos_right h4 hc'.le
    rw [div_mul_cancel₀ _ hc'.ne] at h5
    have h6 := Real.add_one_le_exp (Real.log x * c)
    have h7 := maxFin_real
    linarith

/-- C133 for a base `[0, t]`, by the sign of the lower end `c` of the exponent.  With `c = 0` both ends of the answer are
NaN.  With `0 < c` the answer, unless it is the overflow answer, contains all powers, that of zero included.  With
`c < 0` some power of a positive member is always lost: the upper end of the answer is the largest double, or the
answer is `[inf, inf]`, while the powers are unbounded. -/
theorem C133_zero_base (lm : Libm) (hexp : ExpOK lm.exp) (hlog : LogOK lm.log) (X Y : FIv) (s : Mode)
    (cX : X.cls = .classical) (cY : Y.cls = .classical) (hI : X.a.IntsLe (2 ^ 53) ∧ X.b.IntsLe (2 ^ 53))
    (hJ : Y.a.IntsLe (2 ^ 26) ∧ Y.b.IntsLe (2 ^ 26)) (t c d : ℚ) (ha : X.a.val = .fin 0) (hb : X.b.val = .fin t) (ht : 0 < t)
    (htM : t ≤ maxFin) (hc : Y.a.val = .fin c) (hd : Y.b.val = .fin d) (hcd : c ≤ d) (hdM : d * 800 ≤ maxFin) :
    ∃ Z, FIv.powIv lm X Y s = (.ok Z, s) ∧
      (c = 0 → Z.AllNaN) ∧
      (0 < c → Z = ⟨.classical, .dbl .pinf, .dbl .pinf⟩ ∨ ∀ x y : ℝ, X.Mem x → Y.Mem y → Z.Mem (x ^ y)) ∧
      (c < 0 → (Z = ⟨.classical, .dbl .pinf, .dbl .pinf⟩ ∨ Z.b = .dbl (.fin maxFin)) ∧
        ∃ x y : ℝ, 0 < x ∧ X.Mem x ∧ Y.Mem y ∧ ¬ Z.Mem (x ^ y)) := by
  have ht' : (0 : ℝ) < t := by exact_mod_cast ht
  have hmt : X.Mem (t : ℝ) := ⟨by rw [ha]; show ((0 : ℚ) : ℝ) ≤ t; simpa using ht'.le, by rw [hb]; exact le_refl _⟩
  obtain ⟨p, q, hlg, hp, hq⟩ := log_bounds hlog (s := s) hI ht' hmt
  have hpn : p = .ninf := by
    rcases hp with ⟨h, -⟩ | ⟨t', y, h1, h2, -⟩
    · exact h
    · rw [ha] at h1; cases h1; exact absurd h2 (lt_irrefl _)
  subst hpn
  obtain ⟨z, rfl, z1, z2⟩ : ∃ z : ℚ, q = .fin z ∧ Real.log t ≤ z ∧ (z : ℝ) ≤ Real.log t + 1 := by
    rcases hq with ⟨-, h⟩ | ⟨t', z, h, -, h2, h3, h4⟩
    · rw [hb] at h; cases h
    · rw [hb] at h; cases h; exact ⟨z, h2, h3, h4⟩
  rw [cX] at hlg
  have hz : z ≤ 800 := by
    have := log_maxFin ht htM
    have h2 : (z : ℝ) ≤ 800 := by linarith
    exact_mod_cast h2
  have hYm : Y.Mem (c : ℝ) := ⟨by rw [hc]; exact le_refl _, by rw [hd]; show (c : ℝ) ≤ d; exact_mod_cast hcd⟩
  have hLm : ∀ x : ℝ, 0 < x → X.Mem x → (⟨.classical, .dbl .ninf, .dbl (.fin z)⟩ : FIv).Mem (Real.log x) := by
    intro x hx hm
    refine ⟨trivial, ?_⟩
    have h2 : x ≤ (t : ℝ) := by have := hm.2; rw [hb] at this; exact this
    exact (Real.log_le_log hx h2).trans z1
  have hJ' : Y.a.IntsLe (2 ^ 53) ∧ Y.b.IntsLe (2 ^ 53) := ⟨hJ.1.mono (by norm_num), hJ.2.mono (by norm_num)⟩
  obtain ⟨u, v, hmul, hv⟩ := mul_dbl_run Y cY hJ' .ninf (.fin z) s
  obtain ⟨P, hP, hiff, hnan⟩ := C61_product_iff Y ⟨.classical, .dbl .ninf, .dbl (.fin z)⟩ s cY rfl hJ ⟨trivial, trivial⟩
    ⟨_, hYm⟩ ⟨_, hLm _ ht' hmt⟩
  rw [hmul] at hP
  cases hP
  obtain ⟨Z, hZ⟩ := exp_total hexp ⟨.classical, .dbl u, .dbl v⟩ s ⟨trivial, trivial⟩
  have e1 : (Num.int 0).le X.a = true := by unfold Num.le; rw [ha]; simp [Num.val, Dbl.le]
  have e2 : (Num.int 0).le X.b = true := by unfold Num.le; rw [hb]; simpa [Num.val, Dbl.le] using ht.le
  refine ⟨Z, ?_, fun h0 => ?_, fun h0 => ?_, fun h0 => ?_⟩
  · unfold FIv.powIv
    rw [e1, e2]
    simp only [Bool.and_self, if_true]
    rw [run_bind_ok hlg, run_bind_ok hmul]
    exact hZ
  · subst h0
    obtain ⟨g1, g2⟩ := hnan (by unfold ZeroAndNegInf; rw [hc]; exact Or.inl ⟨rfl, rfl⟩)
    cases g1
    cases g2
    have hx : ∀ m, FIv.toD (lm.exp m (.dbl .nan)) = .ok .nan := fun m => by rw [hexp.nan]; rfl
    rw [exp_run (X := ⟨.classical, .dbl .nan, .dbl .nan⟩) (hx _) (hx _)] at hZ
    cases hZ
    exact ⟨rfl, rfl⟩
  · have hprod := hiff.2 (by
      unfold ZeroAndNegInf; rw [hc]
      rintro (⟨h, -⟩ | ⟨h, -⟩)
      · cases h; exact lt_irrefl _ h0
      · cases h)
    have hd0 : 0 < d := h0.trans_le hcd
    have hvf : v ≠ .pinf := by
      have one : ∀ a : ℚ, 0 < a → a ≤ d → Dbl.mul .up (.fin a) (.fin z) ≠ .pinf := by
        intro a h1 h2 h
        have h3 : a * z ≤ maxFin :=
          (mul_le_mul_of_nonneg_left hz h1.le).trans ((mul_le_mul_of_nonneg_right h2 (by norm_num)).trans hdM)
        obtain ⟨r, hr, -⟩ := round_up_fin h3 (lt_trans (by norm_num) one_lt_maxFin).le isF_maxFin (le_refl _)
        change round .up (a * z) = _ at h
        rw [hr] at h
        cases h
      have two : ∀ a : ℚ, 0 < a → Dbl.mul .up (.fin a) .ninf ≠ .pinf := by
        intro a h1 h
        simp [Dbl.mul, Dbl.infTimes, h1, h1.ne', h1.not_gt] at h
      rw [hc, hd] at hv
      rcases hv with rfl | rfl | rfl | rfl
      exacts [two _ h0, one _ h0 hcd, two _ hd0, one _ hd0 (le_refl _)]
    by_cases hov : Z = ⟨.classical, .dbl .pinf, .dbl .pinf⟩
    · exact Or.inl hov
    obtain ⟨-, b1, b2, b3, -⟩ := exp_bounds hexp (X := ⟨.classical, .dbl u, .dbl v⟩) ⟨trivial, trivial⟩ hZ hov hvf
    have hun : u = .ninf := by
      have hc' : (0 : ℝ) < c := by exact_mod_cast h0
      refine ninf_of_lower fun B => ?_
      set l : ℝ := min (B / c) (Real.log t) with hl
      refine ⟨c * l, ?_, (hprod c l hYm ⟨trivial, (min_le_right _ _).trans z1⟩).1⟩
      have := mul_le_mul_of_nonneg_left (min_le_left (B / c) (Real.log t)) hc'.le
      rwa [mul_div_cancel₀ _ hc'.ne'] at this
    refine Or.inr fun x y hx hy => ?_
    have x1 : (0 : ℝ) ≤ x := by have := hx.1; rw [ha] at this; simpa [Dbl.Lower] using this
    rcases x1.lt_or_eq with hx0 | hx0
    · rw [Real.rpow_def_of_pos hx0, mul_comm]
      have hm := hprod y _ hy (hLm x hx0 hx)
      exact ⟨b1 _ hm.1, b2 _ hm.2⟩
    · have hy0 : 0 < y := by
        have := hy.1; rw [hc] at this
        have h1 : (c : ℝ) ≤ y := this
        have hc' : (0 : ℝ) < c := by exact_mod_cast h0
        linarith
      rw [← hx0, Real.zero_rpow hy0.ne']
      refine ⟨b3 hun 0 (le_refl _), ?_⟩
      have hm := hprod c _ hYm (hLm _ ht' hmt)
      have h1 := b2 _ hm.2
      cases e : Z.b.val with
      | fin q => rw [e] at h1; exact (Real.exp_pos _).le.trans h1
      | pinf => trivial
      | ninf => rw [e] at h1; exact h1.elim
      | nan => rw [e] at h1; exact h1.elim
  · have hprod := hiff.2 (by
      unfold ZeroAndNegInf; rw [hc]
      rintro (⟨h, -⟩ | ⟨h, -⟩)
      · cases h; exact lt_irrefl _ h0
      · cases h)
    have hc' : (c : ℝ) < 0 := by exact_mod_cast h0
    have hvp : v = .pinf := by
      refine pinf_of_upper fun B => ?_
      set l : ℝ := min (B / c) (Real.log t) with hl
      refine ⟨c * l, ?_, (hprod c l hYm ⟨trivial, (min_le_right _ _).trans z1⟩).2⟩
      have := mul_le_mul_of_nonpos_left (min_le_left (B / c) (Real.log t)) hc'.le
      rwa [mul_div_cancel₀ _ hc'.ne] at this
    subst hvp
    have hZb := exp_unbounded hexp hZ
    obtain ⟨x, x1, x2, x3⟩ := power_lost hZb ha hb ht' hc'
    exact ⟨hZb, x, c, x1, x2, hYm, x3⟩

/-- The hypotheses of `C133_zero_base` hold for `[0, 2] ** [1, 3]`, whose answer contains the power of zero and that of two. -/
example (lm : Libm) (hexp : ExpOK lm.exp) (hlog : LogOK lm.log) : ∃ Z,
    FIv.powIv lm ⟨.classical, .int 0, .int 2⟩ ⟨.classical, .int 1, .int 3⟩ .nearest = (.ok Z, .nearest) ∧
      (Z = ⟨.classical, .dbl .pinf, .dbl .pinf⟩ ∨ (Z.Mem ((0 : ℝ) ^ (1 : ℝ)) ∧ Z.Mem ((2 : ℝ) ^ (3 : ℝ)))) := by
  have h8 : (3 : ℚ) * 800 ≤ maxFin := le_trans (by norm_num) two53_le_maxFin
  obtain ⟨Z, h1, -, h2, -⟩ := C133_zero_base lm hexp hlog ⟨.classical, .int 0, .int 2⟩ ⟨.classical, .int 1, .int 3⟩ .nearest
    rfl rfl ⟨by norm_num [Num.IntsLe], by norm_num [Num.IntsLe]⟩ ⟨by norm_num [Num.IntsLe], by norm_num [Num.IntsLe]⟩ 2 1 3
    (by simp [Num.val]) (by simp [Num.val]) (by norm_num) (le_trans (by norm_num) two53_le_maxFin) (by simp [Num.val])
    (by simp [Num.val]) (by norm_num) h8
  refine ⟨Z, h1, (h2 (by norm_num)).imp id fun h => ⟨h 0 1 ⟨?_, ?_⟩ ⟨?_, ?_⟩, h 2 3 ⟨?_, ?_⟩ ⟨?_, ?_⟩⟩⟩ <;>
    norm_num [Num.val, Dbl.Lower, Dbl.Upper]

/-- The case `c < 0` is that of `[0, 2] ** [-1, 3]`. -/
example (lm : Libm) (hexp : ExpOK lm.exp) (hlog : LogOK lm.log) : ∃ Z,
    FIv.powIv lm ⟨.classical, .int 0, .int 2⟩ ⟨.classical, .int (-1), .int 3⟩ .nearest = (.ok Z, .nearest) ∧
      ∃ x y : ℝ, 0 < x ∧ (⟨.classical, .int (-1), .int 3⟩ : FIv).Mem y ∧ ¬ Z.Mem (x ^ y) := by
  have h8 : (3 : ℚ) * 800 ≤ maxFin := le_trans (by norm_num) two53_le_maxFin
  obtain ⟨Z, h1, -, -, h2⟩ := C133_zero_base lm hexp hlog ⟨.classical, .int 0, .int 2⟩ ⟨.classical, .int (-1), .int 3⟩ .nearest
    rfl rfl ⟨by norm_num [Num.IntsLe], by norm_num [Num.IntsLe]⟩ ⟨by norm_num [Num.IntsLe], by norm_num [Num.IntsLe]⟩ 2 (-1) 3
    (by simp [Num.val]) (by simp [Num.val]) (by norm_num) (le_trans (by norm_num) two53_le_maxFin) (by simp [Num.val])
    (by simp [Num.val]) (by norm_num) h8
  obtain ⟨-, x, y, hx, -, hy, hn⟩ := h2 (by norm_num)
  exact ⟨Z, h1, x, y, hx, hy, hn⟩

/-- C71 for a base `[0, t]`: for an exponent `0.0` both ends of the answer are NaN, and for a negative exponent some power of a
positive member is always lost.  (For a positive exponent `C71_real_power_encloses_partial` gives the enclosure.) -/
theorem C71_zero_base (lm : Libm) (hexp : ExpOK lm.exp) (hlog : LogOK lm.log) (X : FIv) (s : Mode)
    (cX : X.cls = .classical) (hI : X.a.IntsLe (2 ^ 53) ∧ X.b.IntsLe (2 ^ 53)) (t : ℚ) (ha : X.a.val = .fin 0)
    (hb : X.b.val = .fin t) (ht : 0 < t) (c : Num) (q : ℚ) (hc : c.IntsLe (2 ^ 26)) (hq : c.val = .fin q) :
    ∃ Z, FIv.powReal lm X c s = (.ok Z, s) ∧
      (q = 0 → Z.AllNaN) ∧
      (q < 0 → (Z = ⟨.classical, .dbl .pinf, .dbl .pinf⟩ ∨ Z.b = .dbl (.fin maxFin)) ∧
        ∃ x : ℝ, 0 < x ∧ X.Mem x ∧ ¬ Z.Mem (x ^ (q : ℝ))) := by
  have ht' : (0 : ℝ) < t := by exact_mod_cast ht
  have hmt : X.Mem (t : ℝ) := ⟨by rw [ha]; show ((0 : ℚ) : ℝ) ≤ t; simpa using ht'.le, by rw [hb]; exact le_refl _⟩
  obtain ⟨p, r, hlg, hp, hr⟩ := log_bounds hlog (s := s) hI ht' hmt
  have hpn : p = .ninf := by
    rcases hp with ⟨h, -⟩ | ⟨t', y, h1, h2, -⟩
    · exact h
    · rw [ha] at h1; cases h1; exact absurd h2 (lt_irrefl _)
  subst hpn
  obtain ⟨z, rfl, z1⟩ : ∃ z : ℚ, r = .fin z ∧ Real.log t ≤ z := by
    rcases hr with ⟨-, h⟩ | ⟨t', z, h, -, h2, h3, h4⟩
    · rw [hb] at h; cases h
    · rw [hb] at h; cases h; exact ⟨z, h2, h3⟩
  rw [cX] at hlg
  obtain ⟨P, hmul, hiff, hnan⟩ := C61_number_iff c q ⟨.classical, .dbl .ninf, .dbl (.fin z)⟩ s rfl hq hc ⟨trivial, trivial⟩
    ⟨_, trivial, z1⟩
  have hrun := rmul_run c q hq (hc.mono (by norm_num)) .ninf (.fin z) s
  have hPd : ∃ u v, P = ⟨.classical, .dbl u, .dbl v⟩ := by
    rw [hrun] at hmul
    cases hmul
    have mn : ∀ d e : Dbl, ∃ f, (Num.dbl d).min2 (.dbl e) = .dbl f := by
      intro d e; unfold Num.min2; split_ifs <;> exact ⟨_, rfl⟩
    have mx : ∀ d e : Dbl, ∃ f, (Num.dbl d).max2 (.dbl e) = .dbl f := by
      intro d e; unfold Num.max2; split_ifs <;> exact ⟨_, rfl⟩
    obtain ⟨u, hu⟩ := mn (Dbl.mul .down (.fin q) .ninf) (Dbl.mul .down (.fin q) (.fin z))
    obtain ⟨v, hv⟩ := mx (Dbl.mul .up (.fin q) .ninf) (Dbl.mul .up (.fin q) (.fin z))
    exact ⟨u, v, by rw [hu, hv]⟩
  obtain ⟨u, v, rfl⟩ := hPd
  obtain ⟨Z, hZ⟩ := exp_total hexp ⟨.classical, .dbl u, .dbl v⟩ s ⟨trivial, trivial⟩
  have e1 : (Num.int 0).le X.a = true := by unfold Num.le; rw [ha]; simp [Num.val, Dbl.le]
  have e2 : (Num.int 0).le X.b = true := by unfold Num.le; rw [hb]; simpa [Num.val, Dbl.le] using ht.le
  refine ⟨Z, ?_, fun h0 => ?_, fun h0 => ?_⟩
  · unfold FIv.powReal
    rw [e1, e2]
    simp only [Bool.and_self, if_true]
    rw [run_bind_ok hlg, run_bind_ok hmul]
    exact hZ
  · obtain ⟨g1, g2⟩ := hnan ⟨h0, rfl⟩
    cases g1
    cases g2
    have hx : ∀ m, FIv.toD (lm.exp m (.dbl .nan)) = .ok .nan := fun m => by rw [hexp.nan]; rfl
    rw [exp_run (X := ⟨.classical, .dbl .nan, .dbl .nan⟩) (hx _) (hx _)] at hZ
    cases hZ
    exact ⟨rfl, rfl⟩
  · have hprod := hiff.2 fun h => h0.ne h.1
    have hc' : (q : ℝ) < 0 := by exact_mod_cast h0
    have hvp : v = .pinf := by
      refine pinf_of_upper fun B => ?_
      set l : ℝ := min (B / q) (Real.log t) with hl
      refine ⟨q * l, ?_, (hprod l ⟨trivial, (min_le_right _ _).trans z1⟩).2⟩
      have := mul_le_mul_of_nonpos_left (min_le_left (B / q) (Real.log t)) hc'.le
      rwa [mul_div_cancel₀ _ hc'.ne] at this
    subst hvp
    have hZb := exp_unbounded hexp hZ
    exact ⟨hZb, power_lost hZb ha hb ht' hc'⟩

/-- The two cases for `[0, 1] ** -1` and `[0, 1] ** 0.0`. -/
example (lm : Libm) (hexp : ExpOK lm.exp) (hlog : LogOK lm.log) :
    (∃ Z, FIv.powReal lm ⟨.classical, .int 0, .int 1⟩ (.int (-1)) .nearest = (.ok Z, .nearest) ∧ ∃ x : ℝ, 0 < x ∧ ¬ Z.Mem (x ^ (-1 : ℝ))) ∧
    ∃ Z, FIv.powReal lm ⟨.classical, .int 0, .int 1⟩ (.dbl (.fin 0)) .nearest = (.ok Z, .nearest) ∧ Z.AllNaN := by
  obtain ⟨Z, h1, -, h2⟩ := C71_zero_base lm hexp hlog ⟨.classical, .int 0, .int 1⟩ .nearest rfl
    ⟨by norm_num [Num.IntsLe], by norm_num [Num.IntsLe]⟩ 1 (by simp [Num.val]) (by simp [Num.val]) (by norm_num)
    (.int (-1)) (-1) (by norm_num [Num.IntsLe]) (by simp [Num.val])
  obtain ⟨W, g1, g2, -⟩ := C71_zero_base lm hexp hlog ⟨.classical, .int 0, .int 1⟩ .nearest rfl
    ⟨by norm_num [Num.IntsLe], by norm_num [Num.IntsLe]⟩ 1 (by simp [Num.val]) (by simp [Num.val]) (by norm_num)
    (.dbl (.fin 0)) 0 trivial rfl
  obtain ⟨-, x, hx, -, hn⟩ := h2 (by norm_num)
  exact ⟨⟨Z, h1, x, hx, by simpa using hn⟩, W, g1, g2 rfl⟩

end IntvalPy
