import Verif.PropsElemRef

/-!
# C28: exactly when `exp` and `sqrt` enclose
-/

set_option autoImplicit false
set_option linter.unusedSectionVars false

namespace IntvalPy

open FIv

/-- No double exceeds `2 ^ 1024`. -/
theorem maxFin_real : ((maxFin : ℚ) : ℝ) ≤ 2 ^ 1024 := by
  have : (maxFin : ℚ) ≤ 2 ^ 53 * 2 ^ 971 := by
    unfold maxFin
    exact mul_le_mul_of_nonneg_right (by norm_num) (by positivity)
  rw [← pow_add] at this
  exact_mod_cast this

/-- There are members as large as one likes in an interval without upper bound. -/
theorem mem_above {X : FIv} {x₀ : ℝ} (hm : X.Mem x₀) (hb : X.b.val = .pinf) (B : ℝ) :
    ∃ x, B ≤ x ∧ 0 < x ∧ X.Mem x := by
  refine ⟨max (max B 1) x₀, le_trans (le_max_left _ _) (le_max_left _ _),
    lt_of_lt_of_le one_pos (le_trans (le_max_right _ _) (le_max_left _ _)), ?_, ?_⟩
  · have h := hm.1
    cases e : X.a.val with
    | fin t => rw [e] at h; exact le_trans h (le_max_right _ _)
    | ninf => trivial
    | pinf => rw [e] at h; exact h.elim
    | nan => rw [e] at h; exact h.elim
  · rw [hb]; trivial

/-- C28, the exact condition for `exp`: for an interval with a member, the call returns a box with the exponentials of
all members exactly when the interval is bounded above and neither library call overflows. -/
theorem C28_exp_iff (lm : Libm) (hexp : ExpOK lm.exp) (X : FIv) (s : Mode)
    (hI : X.a.IntsLe (2 ^ 53) ∧ X.b.IntsLe (2 ^ 53)) (x₀ : ℝ) (hm : X.Mem x₀) :
    (∃ Y, FIv.exp lm X s = (.ok Y, s) ∧ ∀ x : ℝ, X.Mem x → Y.Mem (Real.exp x)) ↔
      X.b.val ≠ .pinf ∧ lm.exp s X.a ≠ .error .overflowError ∧ lm.exp s X.b ≠ .error .overflowError := by
  have call : ∀ n : Num, n.IntsLe (2 ^ 53) →
      (∃ p, toD (lm.exp s n) = .ok p) ∨ lm.exp s n = .error .overflowError := by
    intro n hn
    cases e : n.val with
    | fin q =>
      rcases hexp.fin s n q hn e with ⟨y, h1, _⟩ | ⟨h1, _⟩
      · exact Or.inl ⟨.fin y, by rw [h1]; rfl⟩
      · exact Or.inr h1
    | ninf => left; rw [num_eq_of_val e (by simp), hexp.ninf]; exact ⟨_, rfl⟩
    | pinf => left; rw [num_eq_of_val e (by simp), hexp.pinf]; exact ⟨_, rfl⟩
    | nan => left; rw [num_eq_of_val e (by simp), hexp.nan]; exact ⟨_, rfl⟩
  constructor
  · rintro ⟨Y, hY, hall⟩
    have no1 : lm.exp s X.a ≠ .error .overflowError := by
      intro h
      rw [exp_overflow (Or.inl h)] at hY
      cases hY
      exact (hall x₀ hm).1
    obtain ⟨p, hp⟩ := (call X.a hI.1).resolve_right no1
    have no2 : lm.exp s X.b ≠ .error .overflowError := by
      intro h
      rw [exp_overflow (Or.inr ⟨⟨p, hp⟩, h⟩)] at hY
      cases hY
      exact (hall x₀ hm).1
    refine ⟨fun hb => ?_, no1, no2⟩
    rw [exp_run hp (q := .pinf) (by rw [num_eq_of_val hb (by simp), hexp.pinf]; rfl)] at hY
    cases hY
    obtain ⟨x, hx, _, hmx⟩ := mem_above hm hb (2 ^ 1024)
    have h1 : Real.exp x ≤ ((maxFin : ℚ) : ℝ) := (hall x hmx).2
    have h2 := Real.add_one_le_exp x
    have h3 := maxFin_real
    linarith
  · rintro ⟨hb, no1, no2⟩
    obtain ⟨Y, hY, h⟩ := C28_exp_encloses_partial lm hexp X s hI hb
    refine ⟨Y, hY, ?_⟩
    rcases h with h | h
    · exfalso
      obtain ⟨p, hp⟩ := (call X.a hI.1).resolve_right no1
      obtain ⟨q, hq⟩ := (call X.b hI.2).resolve_right no2
      rw [exp_run hp hq] at hY
      have hY' := congrArg Prod.fst hY
      simp only [Except.ok.injEq] at hY'
      rw [h] at hY'
      have := congrArg (fun Z : FIv => Z.a) hY'
      simp only [Num.dbl.injEq] at this
      cases p <;> simp only [nextDown] at this
      · split_ifs at this
      all_goals cases this
    · exact h.2

/-- `sqrt` of an interval without upper bound: the upper end of the result is the largest double. -/
theorem sqrt_unbounded (lm : Libm) (hexp : ExpOK lm.exp) (hlog : LogOK lm.log) (X : FIv) (s : Mode)
    (cX : X.cls = .classical) (hI : X.a.IntsLe (2 ^ 53) ∧ X.b.IntsLe (2 ^ 53)) (hb : X.b.val = .pinf) (x₀ : ℝ)
    (hm : X.Mem x₀) :
    ∃ Y, FIv.sqrt lm X s = (.ok Y, s) ∧
      (Y = ⟨.classical, .dbl .pinf, .dbl .pinf⟩ ∨ Y.b = .dbl (.fin maxFin)) := by
  obtain ⟨x, _, hx, hmx⟩ := mem_above hm hb 1
  obtain ⟨p, q, hrun, hp, hq⟩ := log_bounds hlog (s := s) hI hx hmx
  have hq' : q = .pinf := by
    rcases hq with ⟨h, _⟩ | ⟨t, _, h, _⟩
    · exact h
    · rw [hb] at h; cases h
  subst hq'
  rw [cX] at hrun
  set Z : FIv := ⟨.classical, (Num.dbl (Dbl.mul .down (.fin (1 / 2)) p)).min2 (.dbl (Dbl.mul .down (.fin (1 / 2)) .pinf)),
      (Num.dbl (Dbl.mul .up (.fin (1 / 2)) p)).max2 (.dbl (Dbl.mul .up (.fin (1 / 2)) .pinf))⟩ with hZ
  have hZrun : FIv.rmul (.dbl (.fin (1 / 2))) ⟨.classical, .dbl p, .dbl .pinf⟩ s = (.ok Z, s) :=
    rmul_run (.dbl (.fin (1 / 2))) (1 / 2) rfl trivial _ _ s
  have hinf : ∀ m, Dbl.mul m (.fin (1 / 2)) .pinf = .pinf := fun m => by simp [Dbl.mul, Dbl.infTimes]
  have hZb : Z.b = .dbl .pinf := by
    simp only [hZ, hinf, Num.max2]
    split_ifs with h
    · rfl
    · rcases hp with ⟨rfl, _⟩ | ⟨t, y, _, _, rfl, _⟩
      · exfalso; apply h; simp [Num.lt, Num.val, Dbl.mul, Dbl.infTimes, Dbl.lt]
      · simp only [Num.lt, Num.val] at h
        cases e : Dbl.mul .up (.fin (1 / 2)) (.fin y) <;> rw [e] at h <;> simp [Dbl.lt] at h
        · exfalso
          simp only [Dbl.mul, round] at e
          split_ifs at e
  have hsq : FIv.sqrt lm X s = FIv.exp lm Z s := by
    have : FIv.sqrt lm X = expLog lm (.dbl (.fin (1 / 2))) X := rfl
    rw [this]
    unfold expLog
    rw [run_bind_ok hrun, run_bind_ok hZrun]
  have hZI : Z.a.IntsLe (2 ^ 53) ∧ Z.b.IntsLe (2 ^ 53) := by
    refine ⟨?_, by rw [hZb]; trivial⟩
    simp only [hZ]
    unfold Num.min2
    split_ifs <;> trivial
  obtain ⟨Y, hY⟩ := exp_total hexp Z s hZI
  refine ⟨Y, by rw [hsq, hY], ?_⟩
  by_cases ho : lm.exp s Z.a = .error .overflowError
  · rw [exp_overflow (Or.inl ho)] at hY
    cases hY
    exact Or.inl rfl
  · right
    have hpa : ∃ p', toD (lm.exp s Z.a) = .ok p' := by
      cases e : Z.a.val with
      | fin q =>
        rcases hexp.fin s Z.a q hZI.1 e with ⟨y, h1, _⟩ | ⟨h1, _⟩
        · exact ⟨.fin y, by rw [h1]; rfl⟩
        · exact absurd h1 ho
      | ninf => rw [num_eq_of_val e (by simp), hexp.ninf]; exact ⟨_, rfl⟩
      | pinf => rw [num_eq_of_val e (by simp), hexp.pinf]; exact ⟨_, rfl⟩
      | nan => rw [num_eq_of_val e (by simp), hexp.nan]; exact ⟨_, rfl⟩
    obtain ⟨p', hp'⟩ := hpa
    rw [exp_run hp' (q := .pinf) (by rw [hZb, hexp.pinf]; rfl)] at hY
    cases hY
    rfl

/-- C28, the exact condition for `sqrt`: for an interval with a nonnegative member (an ordinary one, with doubles as
ends), the result contains the square roots of all nonnegative members exactly when the interval is bounded above.
Otherwise the upper end of the result is the largest double. -/
theorem C28_sqrt_iff (lm : Libm) (hexp : ExpOK lm.exp) (hlog : LogOK lm.log) (X : FIv) (s : Mode)
    (cX : X.cls = .classical) (hI : X.a.IntsLe (2 ^ 53) ∧ X.b.IntsLe (2 ^ 53))
    (hbM : ∀ t, X.b.val = .fin t → t ≤ maxFin) (haF : ∀ p, X.a.val = .fin p → IsF p) (x₀ : ℝ) (hx₀ : 0 ≤ x₀)
    (hm : X.Mem x₀) :
    (∃ Y, FIv.sqrt lm X s = (.ok Y, s) ∧ ∀ x : ℝ, 0 ≤ x → X.Mem x → Y.Mem (Real.sqrt x)) ↔ X.b.val ≠ .pinf := by
  constructor
  · rintro ⟨Y, hY, hall⟩ hb
    obtain ⟨Y', hY', h⟩ := sqrt_unbounded lm hexp hlog X s cX hI hb x₀ hm
    rw [hY'] at hY
    cases hY
    obtain ⟨x, hx, hx0, hmx⟩ := mem_above hm hb ((2 ^ 1024 + 1) ^ 2)
    have hr := hall x hx0.le hmx
    rcases h with h | h
    · rw [h] at hr; exact hr.1
    · have h1 : Real.sqrt x ≤ ((maxFin : ℚ) : ℝ) := by
        have := hr.2
        rw [h] at this
        exact this
      have h2 : (2 : ℝ) ^ 1024 + 1 ≤ Real.sqrt x := Real.le_sqrt_of_sq_le hx
      have h3 := maxFin_real
      linarith
  · intro hb
    obtain ⟨t, ht⟩ : ∃ t, X.b.val = .fin t := by
      have h := hm.2
      cases e : X.b.val with
      | fin t => exact ⟨t, rfl⟩
      | pinf => exact absurd e hb
      | ninf => rw [e] at h; exact h.elim
      | nan => rw [e] at h; exact h.elim
    obtain ⟨Y, hY, _⟩ := C28_sqrt_encloses lm hexp hlog X s cX hI t ht (hbM t ht) haF x₀ hx₀ hm
    refine ⟨Y, hY, fun x hx hmx => ?_⟩
    obtain ⟨Y', hY', h⟩ := C28_sqrt_encloses lm hexp hlog X s cX hI t ht (hbM t ht) haF x hx hmx
    rw [hY] at hY'
    cases hY'
    exact h

/-! Non-trivial instances: `exp` of `[-1, 2]` encloses, of `[0, 1000]` and `[0, inf]` it does not. -/

example (s : Mode) : ∃ Y, FIv.exp refLibm ⟨.classical, .int (-1), .int 2⟩ s = (.ok Y, s) ∧
    ∀ x : ℝ, FIv.Mem ⟨.classical, .int (-1), .int 2⟩ x → Y.Mem (Real.exp x) :=
  (C28_exp_iff refLibm refLibm_exp _ s ⟨by norm_num [Num.IntsLe], by norm_num [Num.IntsLe]⟩ 0
    ⟨by simp [Num.val, Dbl.Lower], by simp [Num.val, Dbl.Upper]⟩).mpr
    ⟨by simp [Num.val], by simp [refLibm, Num.val]; norm_num, by simp [refLibm, Num.val]; norm_num⟩

example (s : Mode) : ¬ ∃ Y, FIv.exp refLibm ⟨.classical, .int 0, .int 1000⟩ s = (.ok Y, s) ∧
    ∀ x : ℝ, FIv.Mem ⟨.classical, .int 0, .int 1000⟩ x → Y.Mem (Real.exp x) := fun h =>
  ((C28_exp_iff refLibm refLibm_exp _ s ⟨by norm_num [Num.IntsLe], by norm_num [Num.IntsLe]⟩ 0
    ⟨by simp [Num.val, Dbl.Lower], by simp [Num.val, Dbl.Upper]⟩).mp h).2.2 (by norm_num [refLibm, Num.val])

example (s : Mode) : ¬ ∃ Y, FIv.sqrt refLibm ⟨.classical, .int 0, .dbl .pinf⟩ s = (.ok Y, s) ∧
    ∀ x : ℝ, 0 ≤ x → FIv.Mem ⟨.classical, .int 0, .dbl .pinf⟩ x → Y.Mem (Real.sqrt x) := fun h =>
  (C28_sqrt_iff refLibm refLibm_exp refLibm_log ⟨.classical, .int 0, .dbl .pinf⟩ s rfl
    ⟨by norm_num [Num.IntsLe], trivial⟩ (fun t h => by cases h)
    (fun p h => by cases h; exact ⟨0, 0, by norm_num, by norm_num, by norm_num⟩) 1 (by norm_num)
    ⟨by simp [Num.val, Dbl.Lower], trivial⟩).mp h rfl

end IntvalPy
