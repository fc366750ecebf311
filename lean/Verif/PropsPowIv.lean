import Verif.PropsNaN
import Verif.PropsElem

/-!
# Powers with an interval exponent (C133)

`X ** Y` is computed as `exp(Y * log(X))`.
-/

set_option autoImplicit false
set_option linter.unusedSectionVars false

namespace IntvalPy
open M FIv

/-- The product of two numbers the second of which is a float. -/
theorem mul_dbl (m : Mode) {c : Num} (hc : c.IntsLe (2 ^ 53)) (d : Dbl) :
    Num.mul m c (.dbl d) = .ok (.dbl (Dbl.mul m c.val d)) := by
  have : Num.mul m c (.dbl d) = Num.viaDbl (fun p q => .ok (Dbl.mul m p q)) c (.dbl d) := by cases c <;> rfl
  rw [this, viaDbl_of_small _ hc (y := .dbl d) trivial]
  rfl

/-- The product of an interval and an interval with float ends does not raise; its ends are rounded products of ends. -/
theorem mul_dbl_run (Y : FIv) (cY : Y.cls = .classical) (hY : Y.a.IntsLe (2 ^ 53) ∧ Y.b.IntsLe (2 ^ 53)) (p q : Dbl) (s : Mode) :
    ∃ u v, FIv.mul Y ⟨.classical, .dbl p, .dbl q⟩ s = (.ok ⟨.classical, .dbl u, .dbl v⟩, s) ∧
      (v = Dbl.mul .up Y.a.val p ∨ v = Dbl.mul .up Y.a.val q ∨ v = Dbl.mul .up Y.b.val p ∨ v = Dbl.mul .up Y.b.val q) := by
  have mn : ∀ d e : Dbl, ∃ f, (Num.dbl d).min2 (.dbl e) = .dbl f ∧ (f = d ∨ f = e) := by
    intro d e; unfold Num.min2; split_ifs
    exacts [⟨_, rfl, Or.inr rfl⟩, ⟨_, rfl, Or.inl rfl⟩]
  have mx : ∀ d e : Dbl, ∃ f, (Num.dbl d).max2 (.dbl e) = .dbl f ∧ (f = d ∨ f = e) := by
    intro d e; unfold Num.max2; split_ifs
    exacts [⟨_, rfl, Or.inr rfl⟩, ⟨_, rfl, Or.inl rfl⟩]
  have nm : ∀ (c : Num) (d : Dbl) (m : Mode), c.IntsLe (2 ^ 53) → nmul c (.dbl d) m = (.ok (.dbl (Dbl.mul m c.val d)), m) := by
    intro c d m hc
    change (Num.mul m c (.dbl d), m) = _
    rw [mul_dbl m hc]
  have lo : ∀ m, ∃ u, ((FIv.store (FIv.min4 (nmul Y.a (.dbl p)) (nmul Y.a (.dbl q)) (nmul Y.b (.dbl p)) (nmul Y.b (.dbl q)))) m).1
      = .ok (.dbl u) := by
    intro m
    obtain ⟨f1, e1, -⟩ := mn (Dbl.mul m Y.a.val p) (Dbl.mul m Y.a.val q)
    obtain ⟨f2, e2, -⟩ := mn f1 (Dbl.mul m Y.b.val p)
    obtain ⟨f3, e3, -⟩ := mn f2 (Dbl.mul m Y.b.val q)
    refine ⟨f3, ?_⟩
    have := run_store (x := FIv.min4 (nmul Y.a (.dbl p)) (nmul Y.a (.dbl q)) (nmul Y.b (.dbl p)) (nmul Y.b (.dbl q))) (m := m)
      (v := .dbl f3) (by
        unfold FIv.min4
        rw [run_bind_ok (nm _ _ _ hY.1), run_bind_ok (nm _ _ _ hY.1), run_bind_ok (nm _ _ _ hY.2), run_bind_ok (nm _ _ _ hY.2),
          e1, e2, e3]
        rfl) trivial
    exact this
  have hi : ∀ m, ∃ v, ((FIv.store (FIv.max4 (nmul Y.a (.dbl p)) (nmul Y.a (.dbl q)) (nmul Y.b (.dbl p)) (nmul Y.b (.dbl q)))) m).1
      = .ok (.dbl v) ∧ (v = Dbl.mul m Y.a.val p ∨ v = Dbl.mul m Y.a.val q ∨ v = Dbl.mul m Y.b.val p ∨ v = Dbl.mul m Y.b.val q) := by
    intro m
    obtain ⟨f1, e1, c1⟩ := mx (Dbl.mul m Y.a.val p) (Dbl.mul m Y.a.val q)
    obtain ⟨f2, e2, c2⟩ := mx f1 (Dbl.mul m Y.b.val p)
    obtain ⟨f3, e3, c3⟩ := mx f2 (Dbl.mul m Y.b.val q)
    refine ⟨f3, ?_, ?_⟩
    · have := run_store (x := FIv.max4 (nmul Y.a (.dbl p)) (nmul Y.a (.dbl q)) (nmul Y.b (.dbl p)) (nmul Y.b (.dbl q))) (m := m)
        (v := .dbl f3) (by
          unfold FIv.max4
          rw [run_bind_ok (nm _ _ _ hY.1), run_bind_ok (nm _ _ _ hY.1), run_bind_ok (nm _ _ _ hY.2), run_bind_ok (nm _ _ _ hY.2),
            e1, e2, e3]
          rfl) trivial
      exact this
    · rcases c3 with rfl | rfl
      · rcases c2 with rfl | rfl
        · rcases c1 with rfl | rfl <;> simp
        · simp
      · simp
  obtain ⟨u, hu⟩ := lo .down
  obtain ⟨v, hv, hc⟩ := hi .up
  refine ⟨u, v, ?_, hc⟩
  unfold FIv.mul
  rw [cY]
  exact run_two_ok hu hv

/-- The logarithm of an interval of positive doubles has ends of moderate size. -/
theorem log_moderate {lm : Libm} (hlog : LogOK lm.log) {X : FIv} (cX : X.cls = .classical) {s : Mode}
    (hI : X.a.IntsLe (2 ^ 53) ∧ X.b.IntsLe (2 ^ 53)) {p t : ℚ} (ha : X.a.val = .fin p) (hb : X.b.val = .fin t) (hp : 0 < p)
    (hpt : p ≤ t) (haF : IsF p) (htM : t ≤ maxFin) :
    ∃ y z : ℚ, FIv.log lm.log X s = (.ok ⟨.classical, .dbl (.fin y), .dbl (.fin z)⟩, s) ∧ |y| ≤ 800 ∧ |z| ≤ 800 ∧
      (y : ℝ) ≤ Real.log p ∧ Real.log t ≤ z := by
  have hm : X.Mem (t : ℝ) := by
    refine ⟨?_, ?_⟩
    · rw [ha]; show (p : ℝ) ≤ t; exact_mod_cast hpt
    · rw [hb]; exact le_refl _
  have ht : 0 < t := hp.trans_le hpt
  obtain ⟨d, e, hrun, hd, he⟩ := log_bounds hlog (s := s) hI (x := (t : ℝ)) (by exact_mod_cast ht) hm
  rcases hd with ⟨-, hn⟩ | ⟨p', y, e1, -, rfl, y1, y2⟩
  · exact absurd (hn p ha) (not_le.mpr hp)
  rcases he with ⟨-, h⟩ | ⟨t', z, e2, -, rfl, z1, z2⟩
  · rw [hb] at h; cases h
  rw [ha] at e1
  rw [hb] at e2
  cases e1
  cases e2
  rw [cX] at hrun
  have l1 := log_minF (isF_pos_ge haF hp)
  have l2 := log_maxFin ht htM
  have l3 : Real.log p ≤ Real.log t := Real.log_le_log (by exact_mod_cast hp) (by exact_mod_cast hpt)
  refine ⟨y, z, hrun, ?_, ?_, y1, z1⟩
  · rw [abs_le]
    have h1 : (-800 : ℝ) ≤ y := by linarith
    have h2 : (y : ℝ) ≤ 800 := by linarith
    exact ⟨by exact_mod_cast h1, by exact_mod_cast h2⟩
  · rw [abs_le]
    have h1 : (-800 : ℝ) ≤ z := by linarith
    have h2 : (z : ℝ) ≤ 800 := by linarith
    exact ⟨by exact_mod_cast h1, by exact_mod_cast h2⟩

/-- C133: the full statement; for every interval of non-negative numbers and every bounded interval of exponents the
result contains all powers of positive members. -/
def C133_statement (lm : Libm) : Prop :=
  ∀ (X Y : FIv) (s : Mode) (p t c d : ℚ), X.cls = .classical → Y.cls = .classical → X.a.val = .fin p → X.b.val = .fin t → 0 ≤ p →
    X.a.IntsLe (2 ^ 53) → X.b.IntsLe (2 ^ 53) → Y.a.val = .fin c → Y.b.val = .fin d → Y.a.IntsLe (2 ^ 26) → Y.b.IntsLe (2 ^ 26) →
    ∀ x y : ℝ, 0 < x → X.Mem x → Y.Mem y → ∃ Z, FIv.powIv lm X Y s = (.ok Z, s) ∧ Z.Mem (x ^ y)

/-- C133 for an interval of positive doubles: the call succeeds and, unless the answer is the overflow answer
`[inf, inf]`, it contains `x ** y` for all members of the two intervals. -/
theorem C133_interval_power_partial (lm : Libm) (hexp : ExpOK lm.exp) (hlog : LogOK lm.log) (X Y : FIv) (s : Mode)
    (cX : X.cls = .classical) (cY : Y.cls = .classical) (hI : X.a.IntsLe (2 ^ 53) ∧ X.b.IntsLe (2 ^ 53))
    (hJ : Y.a.IntsLe (2 ^ 26) ∧ Y.b.IntsLe (2 ^ 26)) (p t c d : ℚ) (ha : X.a.val = .fin p) (hb : X.b.val = .fin t) (hp : 0 < p)
    (hpt : p ≤ t) (haF : IsF p) (htM : t ≤ maxFin) (hc : Y.a.val = .fin c) (hd : Y.b.val = .fin d)
    (hcM : |c| * 800 ≤ maxFin) (hdM : |d| * 800 ≤ maxFin) :
    ∃ Z, FIv.powIv lm X Y s = (.ok Z, s) ∧
      (Z = ⟨.classical, .dbl .pinf, .dbl .pinf⟩ ∨ ∀ x y : ℝ, X.Mem x → Y.Mem y → Z.Mem (x ^ y)) := by
  obtain ⟨y, z, hlg, hy, hz, hy1, hz1⟩ := log_moderate hlog cX (s := s) hI ha hb hp hpt haF htM
  have hJ' : Y.a.IntsLe (2 ^ 53) ∧ Y.b.IntsLe (2 ^ 53) := ⟨hJ.1.mono (by norm_num), hJ.2.mono (by norm_num)⟩
  obtain ⟨u, v, hmul, hv⟩ := mul_dbl_run Y cY hJ' (.fin y) (.fin z) s
  have hvf : v ≠ .pinf := by
    have one : ∀ a b : ℚ, |a| * 800 ≤ maxFin → |b| ≤ 800 → Dbl.mul .up (.fin a) (.fin b) ≠ .pinf := by
      intro a b h1 h2 h
      have h3 : |a * b| ≤ maxFin := by
        rw [abs_mul]
        exact (mul_le_mul_of_nonneg_left h2 (abs_nonneg a)).trans h1
      obtain ⟨r, hr, -⟩ := round_up_fin (abs_le.1 h3).2 (lt_trans (by norm_num) one_lt_maxFin).le isF_maxFin (le_refl _)
      change round .up (a * b) = _ at h
      rw [hr] at h
      cases h
    rw [hc, hd] at hv
    rcases hv with rfl | rfl | rfl | rfl
    exacts [one _ _ hcM hy, one _ _ hcM hz, one _ _ hdM hy, one _ _ hdM hz]
  obtain ⟨Z, hZ, henc⟩ := C02_float_encloses Y ⟨.classical, .dbl (.fin y), .dbl (.fin z)⟩ s cY rfl ⟨⟨c, hc⟩, d, hd⟩
    ⟨⟨y, rfl⟩, z, rfl⟩ hJ ⟨trivial, trivial⟩
  rw [hmul] at hZ
  cases hZ
  obtain ⟨W, hW, hres⟩ := C28_exp_encloses_partial lm hexp ⟨.classical, .dbl u, .dbl v⟩ s ⟨trivial, trivial⟩ hvf
  refine ⟨W, ?_, hres.imp id fun h x y' hx hy' => ?_⟩
  · have e1 : (Num.int 0).le X.a = true := by unfold Num.le; rw [ha]; simpa [Num.val, Dbl.le] using hp.le
    have e2 : (Num.int 0).le X.b = true := by unfold Num.le; rw [hb]; simpa [Num.val, Dbl.le] using hp.le.trans hpt
    unfold FIv.powIv
    rw [e1, e2]
    simp only [Bool.and_self, if_true]
    rw [run_bind_ok hlg, run_bind_ok hmul]
    exact hW
  · have x1 : (p : ℝ) ≤ x := by have := hx.1; rw [ha] at this; exact this
    have x2 : x ≤ (t : ℝ) := by have := hx.2; rw [hb] at this; exact this
    have hp' : (0 : ℝ) < p := by exact_mod_cast hp
    have hx0 : 0 < x := hp'.trans_le x1
    rw [Real.rpow_def_of_pos hx0, mul_comm]
    refine h.2 _ (henc y' _ hy' ⟨?_, ?_⟩)
    · exact hy1.trans (Real.log_le_log hp' x1)
    · exact (Real.log_le_log hx0 x2).trans hz1

/-- C133, what raises: a base with a negative or NaN end raises `ValueError`; a bounded interval of non-negative numbers
never raises. -/
theorem C133_raises (lm : Libm) (hexp : ExpOK lm.exp) (hlog : LogOK lm.log) (X Y : FIv) (s : Mode) :
    ((¬ Dbl.le (.fin 0) X.a.val = true ∨ ¬ Dbl.le (.fin 0) X.b.val = true) → FIv.powIv lm X Y s = (.error .valueError, s)) ∧
    (∀ p t : ℚ, X.cls = .classical → Y.cls = .classical → X.a.IntsLe (2 ^ 53) → X.b.IntsLe (2 ^ 53) → Y.a.IntsLe (2 ^ 53) →
      Y.b.IntsLe (2 ^ 53) → X.a.val = .fin p → X.b.val = .fin t → 0 ≤ p → p ≤ t →
      ∃ Z, FIv.powIv lm X Y s = (.ok Z, s)) := by
  constructor
  · intro h
    have z : (Num.int 0).val = .fin 0 := by simp [Num.val]
    unfold FIv.powIv Num.le
    rw [z]
    rcases h with h | h
    · rw [Bool.eq_false_iff.mpr h]; rfl
    · rw [Bool.eq_false_iff.mpr h, Bool.and_false]; rfl
  · intro p t cX cY i1 i2 j1 j2 ha hb hp hpt
    have e1 : (Num.int 0).le X.a = true := by unfold Num.le; rw [ha]; simpa [Num.val, Dbl.le] using hp
    have e2 : (Num.int 0).le X.b = true := by unfold Num.le; rw [hb]; simpa [Num.val, Dbl.le] using hp.trans hpt
    obtain ⟨d, e, hlg⟩ : ∃ d e, FIv.log lm.log X s = (.ok ⟨.classical, .dbl d, .dbl e⟩, s) := by
      rcases (hp.trans hpt).lt_or_eq with ht | ht
      · have hm : X.Mem (t : ℝ) := by
          refine ⟨?_, ?_⟩
          · rw [ha]; show (p : ℝ) ≤ t; exact_mod_cast hpt
          · rw [hb]; exact le_refl _
        obtain ⟨d, e, hrun, -⟩ := log_bounds hlog (s := s) ⟨i1, i2⟩ (x := (t : ℝ)) (by exact_mod_cast ht) hm
        rw [cX] at hrun
        exact ⟨d, e, hrun⟩
      · subst ht
        have hp0 : p = 0 := le_antisymm hpt hp
        subst hp0
        obtain ⟨ca, xa, xb⟩ := X
        simp only at cX i1 i2 ha hb
        subst cX
        have hmxv : (xa.max2 (.dbl (.fin 0))).val = .fin 0 := by
          unfold Num.max2; split_ifs
          · rfl
          · exact ha
        exact ⟨.ninf, .ninf, log_run (v := .dbl .ninf) (w := .dbl .ninf) (by unfold Num.le; rw [ha, hb]; simp [Dbl.le])
          (by show Dbl.le (xa.max2 _).val xb.val = true; rw [hmxv, hb]; simp [Dbl.le]) (by rw [if_pos hmxv]) (if_pos hb) trivial trivial⟩
    obtain ⟨u, v, hmul, -⟩ := mul_dbl_run Y cY ⟨j1, j2⟩ d e s
    obtain ⟨Z, hZ⟩ := exp_total hexp ⟨.classical, .dbl u, .dbl v⟩ s ⟨trivial, trivial⟩
    refine ⟨Z, ?_⟩
    unfold FIv.powIv
    rw [e1, e2]
    simp only [Bool.and_self, if_true]
    rw [run_bind_ok hlg, run_bind_ok hmul]
    exact hZ

/-- C133 is false when the base touches zero: `[0, 1] ** [0, 1]` has two NaN ends, because `0 * (-inf)` is NaN. -/
theorem C133_interval_power_false (lm : Libm) (hexp : ExpOK lm.exp) (hlog : LogOK lm.log) : ¬ C133_statement lm ∧
    ∃ Z, FIv.powIv lm ⟨.classical, .int 0, .int 1⟩ ⟨.classical, .int 0, .int 1⟩ .nearest = (.ok Z, .nearest) ∧ Z.AllNaN := by
  have key : ∃ Z, FIv.powIv lm ⟨.classical, .int 0, .int 1⟩ ⟨.classical, .int 0, .int 1⟩ .nearest = (.ok Z, .nearest) ∧ Z.AllNaN := by
    have hmem : (⟨.classical, .int 0, .int 1⟩ : FIv).Mem (1 : ℝ) :=
      ⟨by simp [Num.val, Dbl.Lower], by simp [Num.val, Dbl.Upper]⟩
    obtain ⟨p, r, hrun, hp, -⟩ := log_bounds hlog (s := .nearest) (X := ⟨.classical, .int 0, .int 1⟩)
      ⟨by norm_num [Num.IntsLe], by norm_num [Num.IntsLe]⟩ (by norm_num) hmem
    have hpn : p = .ninf := by
      rcases hp with ⟨h, -⟩ | ⟨t, y, h1, h2, -⟩
      · exact h
      · simp only [Num.val, Dbl.fin.injEq] at h1
        rw [← h1] at h2
        norm_num at h2
    subst hpn
    obtain ⟨u, v, hmul, -⟩ := mul_dbl_run ⟨.classical, .int 0, .int 1⟩ rfl
      ⟨by norm_num [Num.IntsLe], by norm_num [Num.IntsLe]⟩ .ninf r .nearest
    obtain ⟨h1, h2⟩ := C120_mul_iff ⟨.classical, .int 0, .int 1⟩ ⟨.classical, .dbl .ninf, .dbl r⟩ rfl rfl .nearest _ (by rw [hmul])
    have hn : ProdNaN (Num.int 0).val (Num.dbl .ninf).val :=
      Or.inr (Or.inr (Or.inl ⟨by simp [Num.val], Or.inr rfl⟩))
    have hu : Num.dbl u = .dbl .nan := h1.2 hn
    have hv : Num.dbl v = .dbl .nan := h2.2 hn
    cases hu
    cases hv
    refine ⟨⟨.classical, .dbl .nan, .dbl .nan⟩, ?_, rfl, rfl⟩
    unfold FIv.powIv
    have e : ((Num.int 0).le (Num.int 0) && (Num.int 0).le (Num.int 1)) = true := by simp [Num.le, Num.val, Dbl.le]
    simp only [e, if_true]
    rw [run_bind_ok hrun, run_bind_ok hmul]
    have hx : ∀ m, FIv.toD (lm.exp m (.dbl .nan)) = .ok .nan := fun m => by rw [hexp.nan]; rfl
    exact exp_run (X := ⟨.classical, .dbl .nan, .dbl .nan⟩) (hx _) (hx _)
  refine ⟨fun h => ?_, key⟩
  obtain ⟨Z, hZ, hn⟩ := key
  obtain ⟨Z', hZ', hm⟩ := h ⟨.classical, .int 0, .int 1⟩ ⟨.classical, .int 0, .int 1⟩ .nearest 0 1 0 1 rfl rfl (by simp [Num.val])
    (by simp [Num.val]) (le_refl _) (by norm_num [Num.IntsLe]) (by norm_num [Num.IntsLe]) (by simp [Num.val]) (by simp [Num.val])
    (by norm_num [Num.IntsLe]) (by norm_num [Num.IntsLe]) 1 1 (by norm_num)
    ⟨by simp [Num.val, Dbl.Lower], by simp [Num.val, Dbl.Upper]⟩ ⟨by simp [Num.val, Dbl.Lower], by simp [Num.val, Dbl.Upper]⟩
  rw [hZ] at hZ'
  cases hZ'
  have := hm.1
  rw [isNaN_val.1 hn.1] at this
  exact this

/-- The hypotheses of `C133_interval_power_partial` hold for `[2, 3] ** [-1, 1]`. -/
example (lm : Libm) (hexp : ExpOK lm.exp) (hlog : LogOK lm.log) : ∃ Z,
    FIv.powIv lm ⟨.classical, .int 2, .int 3⟩ ⟨.classical, .int (-1), .int 1⟩ .nearest = (.ok Z, .nearest) ∧
      (Z = ⟨.classical, .dbl .pinf, .dbl .pinf⟩ ∨ Z.Mem ((3 : ℝ) ^ (1 / 2 : ℝ))) := by
  have h8 : (1 : ℚ) * 800 ≤ maxFin := le_trans (by norm_num) two53_le_maxFin
  obtain ⟨Z, h1, h2⟩ := C133_interval_power_partial lm hexp hlog ⟨.classical, .int 2, .int 3⟩ ⟨.classical, .int (-1), .int 1⟩ .nearest
    rfl rfl ⟨by norm_num [Num.IntsLe], by norm_num [Num.IntsLe]⟩ ⟨by norm_num [Num.IntsLe], by norm_num [Num.IntsLe]⟩ 2 3 (-1) 1
    (by simp [Num.val]) (by simp [Num.val]) (by norm_num) (by norm_num) (by simpa using isF_int (K := ℚ) (z := 2) (by norm_num))
    (le_trans (by norm_num) two53_le_maxFin) (by simp [Num.val]) (by simp [Num.val]) (by simpa using h8) (by simpa using h8)
  refine ⟨Z, h1, h2.imp id fun h => h 3 (1 / 2) ⟨?_, ?_⟩ ⟨?_, ?_⟩⟩ <;> norm_num [Num.val, Dbl.Lower, Dbl.Upper]

end IntvalPy
