import Verif.PropsTrig

/-!
# The assumptions about `math` can be met

A mathematical library (`refLibm`) satisfying `ExpOK`, `LogOK` and `TrigOK`, and concrete instances of the theorems of
`PropsElem` and `PropsTrig` for it.
-/

set_option autoImplicit false
set_option linter.unusedSectionVars false

namespace IntvalPy

/-- The largest double (ignoring overflow) below a real number, as a rational. -/
noncomputable def rndR (r : ℝ) : ℚ := (⌊r / ulp r⌋ : ℤ) * 2 ^ (ulpExp r)

theorem rndR_cast (r : ℝ) : ((rndR r : ℚ) : ℝ) = floorTo r := by
  unfold rndR floorTo ulp
  push_cast; rfl

theorem isF_cast {q : ℚ} : IsF ((q : ℚ) : ℝ) ↔ IsF q := by
  constructor
  · rintro ⟨m, e, h1, h2, h3⟩
    refine ⟨m, e, h1, h2, ?_⟩
    have : ((q : ℚ) : ℝ) = (((m : ℚ) * 2 ^ e : ℚ) : ℝ) := by rw [h3]; push_cast; rfl
    exact_mod_cast this
  · rintro ⟨m, e, h1, h2, h3⟩
    exact ⟨m, e, h1, h2, by rw [h3]; push_cast; rfl⟩

theorem rndR_spec (r : ℝ) : IsF (rndR r) ∧ ((rndR r : ℚ) : ℝ) ≤ r ∧
    (∀ f : ℚ, IsF f → (f : ℝ) ≤ r → f ≤ rndR r) := by
  refine ⟨?_, ?_, ?_⟩
  · rw [← isF_cast, rndR_cast]; exact floorTo_isF _
  · rw [rndR_cast]; exact floorTo_le _
  · intro f hf h
    have := le_floorTo (isF_cast.mpr hf) h
    rw [← rndR_cast] at this
    exact_mod_cast this

theorem rndR_brackets (r : ℝ) (h : r < ((maxFin : ℚ) : ℝ)) (h' : -((maxFin : ℚ) : ℝ) < r) :
    (nextDown (.fin (rndR r))).Lower r ∧ (nextUp (.fin (rndR r))).Upper r := by
  obtain ⟨h1, h2, h3⟩ := rndR_spec r
  have ht := tinyQ_pos
  constructor
  · simp only [nextDown]
    split_ifs with hle
    · simp only [Dbl.Lower]; push_cast; linarith
    · simp only [Dbl.Lower]
      have := floorTo_le (rndR r - tinyQ)
      have h4 : floorTo (rndR r - tinyQ) ≤ rndR r := by linarith
      exact le_trans (by exact_mod_cast h4) h2
  · simp only [nextUp]
    split_ifs with hle
    · simp only [Dbl.Upper]; linarith
    · simp only [Dbl.Upper]
      by_contra hcon
      have h4 := h3 _ (ceilTo_isF (rndR r + tinyQ)) (not_le.mp hcon).le
      have := le_ceilTo (rndR r + tinyQ)
      linarith

/-- A mathematical library meeting the assumptions: results rounded down, `OverflowError` above 400. -/
noncomputable def refLibm : Libm where
  exp _ n := match n.val with
    | .fin q => if 400 < q then .error .overflowError else .ok (.dbl (.fin (rndR (Real.exp q))))
    | .ninf => .ok (.dbl (.fin 0))
    | .pinf => .ok (.dbl .pinf)
    | .nan => .ok (.dbl .nan)
  log m n := match n.val with
    | .fin q => if 0 < q then
        .ok (.dbl (.fin (match m with | .up => (⌈Real.log q⌉ : ℤ) | _ => (⌊Real.log q⌋ : ℤ))))
        else .error .valueError
    | .ninf => .error .valueError
    | .pinf => .ok (.dbl .pinf)
    | .nan => .ok (.dbl .nan)
  sin _ n := match n.val with
    | .fin q => .ok (.dbl (.fin (rndR (Real.sin q))))
    | _ => .error .valueError
  cos _ n := match n.val with
    | .fin q => .ok (.dbl (.fin (rndR (Real.cos q))))
    | _ => .error .valueError

theorem exp400_lt : Real.exp 400 < ((maxFin : ℚ) : ℝ) := by
  have h1 : Real.exp 400 = Real.exp 1 ^ 400 := by rw [← Real.exp_nat_mul]; norm_num
  have h2 : Real.exp 1 ^ 400 < 4 ^ 400 :=
    pow_lt_pow_left₀ (by have := Real.exp_one_lt_d9; norm_num at this ⊢; linarith) (Real.exp_pos _).le (by norm_num)
  have h3 : (4 : ℝ) ^ 400 = 2 ^ 800 := by rw [show (4 : ℝ) = 2 ^ 2 by norm_num, ← pow_mul]
  have h4 : ((2 : ℚ) ^ 800 : ℚ) ≤ maxFin := by
    have e : (2 : ℚ) ^ 800 ≤ 2 ^ 971 := pow_le_pow_right₀ (by norm_num) (by norm_num)
    unfold maxFin
    have e2 : (1 : ℚ) ≤ 2 ^ 53 - 1 := by norm_num
    calc (2 : ℚ) ^ 800 ≤ 2 ^ 971 := e
      _ = 1 * 2 ^ 971 := (one_mul _).symm
      _ ≤ (2 ^ 53 - 1) * 2 ^ 971 := mul_le_mul_of_nonneg_right e2 (by positivity)
  have h5 : ((2 : ℝ) ^ 800) ≤ ((maxFin : ℚ) : ℝ) := by
    have := (Rat.cast_le (K := ℝ)).mpr h4
    rwa [Rat.cast_pow, Rat.cast_ofNat] at this
  rw [h1]
  exact (h2.trans_eq h3).trans_le h5

theorem refLibm_exp : ExpOK refLibm.exp where
  fin m n q _ hq := by
    simp only [refLibm, hq]
    by_cases h : 400 < q
    · right; exact ⟨by rw [if_pos h], h⟩
    · left
      rw [if_neg h]
      have hle : Real.exp q ≤ Real.exp 400 := Real.exp_le_exp.mpr (by exact_mod_cast not_lt.mp h)
      have hM : (0 : ℝ) < ((maxFin : ℚ) : ℝ) := lt_trans (Real.exp_pos 400) exp400_lt
      obtain ⟨h1, h2⟩ := rndR_brackets (Real.exp q) (hle.trans_lt exp400_lt) (by linarith [Real.exp_pos (q : ℝ)])
      exact ⟨_, rfl, h1, h2⟩
  ninf m := rfl
  pinf m := rfl
  nan m := rfl

theorem refLibm_log : LogOK refLibm.log where
  down n q _ hq h0 := by
    simp only [refLibm, hq, if_pos h0]
    refine ⟨_, rfl, ?_, ?_⟩
    · push_cast; exact Int.floor_le _
    · push_cast; linarith [Int.lt_floor_add_one (Real.log q)]
  up n q _ hq h0 := by
    simp only [refLibm, hq, if_pos h0]
    refine ⟨_, rfl, ?_, ?_⟩
    · push_cast; exact Int.le_ceil _
    · push_cast; linarith [Int.ceil_lt_add_one (Real.log q)]
  pinf m := rfl

theorem rndR_trig (r : ℝ) (h : |r| ≤ 1) : IsF (rndR r) ∧ |rndR r| ≤ 1 ∧
    (nextDown (.fin (rndR r))).Lower r ∧ (nextUp (.fin (rndR r))).Upper r := by
  rw [abs_le] at h
  have hM : (2 : ℝ) < ((maxFin : ℚ) : ℝ) := by exact_mod_cast one_lt_maxFin
  obtain ⟨h1, h2, h3⟩ := rndR_spec r
  obtain ⟨h4, h5⟩ := rndR_brackets r (by linarith) (by linarith)
  refine ⟨h1, ?_, h4, h5⟩
  rw [abs_le]
  constructor
  · exact h3 (-1) ⟨-1, 0, by norm_num, by norm_num, by norm_num⟩ (by push_cast; exact h.1)
  · have := h2.trans h.2; exact_mod_cast this

theorem refLibm_trig : TrigOK refLibm.sin Real.sin ∧ TrigOK refLibm.cos Real.cos := by
  constructor
  · intro m n q _ hq
    obtain ⟨h1, h2, h3, h4⟩ := rndR_trig (Real.sin q) (Real.abs_sin_le_one _)
    exact ⟨_, by simp only [refLibm, hq], h1, h2, h3, h4⟩
  · intro m n q _ hq
    obtain ⟨h1, h2, h3, h4⟩ := rndR_trig (Real.cos q) (Real.abs_cos_le_one _)
    exact ⟨_, by simp only [refLibm, hq], h1, h2, h3, h4⟩

/-! ## Instances -/

/-- `exp([-1, 2])` contains `e`. -/
example (s : Mode) : ∃ Y, FIv.exp refLibm ⟨.classical, .int (-1), .int 2⟩ s = (.ok Y, s) ∧ Y.Mem (Real.exp 1) := by
  obtain ⟨Y, h1, h2⟩ := C28_exp_encloses_moderate refLibm refLibm_exp ⟨.classical, .int (-1), .int 2⟩ s 2
    ⟨by norm_num [Num.IntsLe], by norm_num [Num.IntsLe]⟩ (by simp [Num.val]) (by norm_num)
  exact ⟨Y, h1, h2 1 ⟨by simp [Num.val, Dbl.Lower], by simp [Num.val, Dbl.Upper]⟩⟩

/-- `sqrt([0, 4])` contains `sqrt 4`, `sqrt 0` and everything between. -/
example (s : Mode) (x : ℝ) (h0 : 0 ≤ x) (h4 : x ≤ 4) :
    ∃ Y, FIv.sqrt refLibm ⟨.classical, .int 0, .int 4⟩ s = (.ok Y, s) ∧ Y.Mem (Real.sqrt x) :=
  C28_sqrt_encloses refLibm refLibm_exp refLibm_log ⟨.classical, .int 0, .int 4⟩ s rfl
    ⟨by norm_num [Num.IntsLe], by norm_num [Num.IntsLe]⟩ 4 (by simp [Num.val])
    (le_trans (by norm_num) two53_le_maxFin)
    (fun p hp => by
      have : p = 0 := by simpa [Num.val] using hp.symm
      rw [this]; exact isF_zero) x h0
    ⟨by simpa [Num.val, Dbl.Lower] using h0, by simpa [Num.val, Dbl.Upper] using h4⟩

/-- `[1, 4] ** (-0.5)` for the reference library. -/
example (s : Mode) : ∃ Y, FIv.powReal refLibm ⟨.classical, .int 1, .int 4⟩ (.dbl (.fin (-1 / 2))) s = (.ok Y, s) ∧
    (Y = ⟨.classical, .dbl .pinf, .dbl .pinf⟩ ∨
      ∀ x : ℝ, (⟨.classical, .int 1, .int 4⟩ : FIv).Mem x → Y.Mem (x ^ (((-1 / 2 : ℚ)) : ℝ))) :=
  C71_real_power_encloses_partial refLibm refLibm_exp refLibm_log ⟨.classical, .int 1, .int 4⟩ s rfl
    ⟨by norm_num [Num.IntsLe], by norm_num [Num.IntsLe]⟩ 1 4 (by simp [Num.val]) (by norm_num) (by norm_num)
    (by simp [Num.val]) (le_trans (by norm_num) two53_le_maxFin) ⟨1, 0, by norm_num, by norm_num, by norm_num⟩ _ _
    trivial rfl (le_trans (by rw [abs_of_neg (by norm_num)]; norm_num) two53_le_maxFin)
    (Or.inr ⟨by norm_num, by norm_num⟩)

/-- `sin([1, 2])` contains one. -/
example (s : Mode) : ∃ u v : ℚ, FIv.sin refLibm ⟨.classical, .int 1, .int 2⟩ s =
    (.ok ⟨.classical, .dbl (.fin u), .dbl (.fin v)⟩, s) ∧ (u : ℝ) ≤ 1 ∧ (1 : ℝ) ≤ v := by
  obtain ⟨u, v, h1, h2, _⟩ := C29_sin_encloses_partial refLibm refLibm_trig.1 ⟨.classical, .int 1, .int 2⟩ s 1 2
    ⟨by norm_num [Num.IntsLe], by simp [Num.val], by norm_num⟩
    ⟨by norm_num [Num.IntsLe], by simp [Num.val], by norm_num⟩ (by norm_num)
  have := h2 (Real.pi / 2) ((mem_fin (a := 1) (b := 2) (by simp [Num.val]) (by simp [Num.val]) _).mpr
    ⟨by push_cast; linarith [Real.pi_gt_three], by push_cast; linarith [Real.pi_le_four]⟩)
  rw [Real.sin_pi_div_two] at this
  exact ⟨u, v, h1, this.1, this.2⟩

/-- The refutations apply to the reference library. -/
example : ¬ C29_statement (FIv.cos refLibm) Real.cos ∧ ¬ C28_exp_statement refLibm ∧
    ¬ C71_real_power_statement refLibm :=
  ⟨C29_large_argument_false _ refLibm_trig.2, C28_exp_unbounded_false _ refLibm_exp,
    C71_negative_power_false _ refLibm_exp refLibm_log⟩

end IntvalPy
