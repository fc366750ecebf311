import Verif.PropsFloatWit
import Verif.PropsNaN

/-!
# C61, C135: products and quotients with infinite ends, exactly when they enclose

`min` and `max` keep a NaN that comes first and pass over the others.  So `X * Y` and `X / Y` of classical intervals
are right unless the first of the four products or quotients, the one of the two lower ends, is NaN.
-/

set_option autoImplicit false
set_option linter.unusedSectionVars false

namespace IntvalPy
open FIv

/-! ## The four corners -/

theorem infTimes_pos_true {q : ℚ} (h : 0 < q) : Dbl.infTimes q true = .pinf := by simp [Dbl.infTimes, h.ne', h]
theorem infTimes_pos_false {q : ℚ} (h : 0 < q) : Dbl.infTimes q false = .ninf := by simp [Dbl.infTimes, h.ne', h]
theorem infTimes_neg_true {q : ℚ} (h : q < 0) : Dbl.infTimes q true = .ninf := by simp [Dbl.infTimes, h.ne, h.le]
theorem infTimes_neg_false {q : ℚ} (h : q < 0) : Dbl.infTimes q false = .pinf := by simp [Dbl.infTimes, h.ne, h.le]

/-- `d * e` rounded downwards bounds `t` from below for one of the four pairs of ends. -/
def SomeLower (op : Dbl → Dbl → Dbl) (a b c d : Dbl) (t : ℝ) : Prop :=
  (op a c).Lower t ∨ (op a d).Lower t ∨ (op b c).Lower t ∨ (op b d).Lower t

/-- `d * e` rounded upwards bounds `t` from above for one of the four pairs of ends. -/
def SomeUpper (op : Dbl → Dbl → Dbl) (a b c d : Dbl) (t : ℝ) : Prop :=
  (op a c).Upper t ∨ (op a d).Upper t ∨ (op b c).Upper t ∨ (op b d).Upper t

/-- Some product of the ends is a number. -/
def SomeOk (op : Dbl → Dbl → Dbl) (a b c d : Dbl) : Prop := (op a c).Ok ∨ (op a d).Ok ∨ (op b c).Ok ∨ (op b d).Ok

theorem mul_someLower_nonneg {a b c d : Dbl} {x y : ℝ} (ha : a.Lower x) (hb : b.Upper x) (hc : c.Lower y)
    (hd : d.Upper y) (hy : 0 ≤ y) (ok : SomeOk (Dbl.mul .down) a b c d) : SomeLower (Dbl.mul .down) a b c d (x * y) := by
  unfold SomeLower
  have r0 : ∀ {p q : ℚ} {t : ℝ}, ((p : ℝ) * q ≤ t) → (Dbl.mul .down (.fin p) (.fin q)).Lower t := by
    intro p q t h
    exact round_down_lower (by push_cast; exact h)
  cases a with
  | pinf => exact ha.elim
  | nan => exact ha.elim
  | fin a =>
    have ha : (a : ℝ) ≤ x := ha
    have h1 : (a : ℝ) * y ≤ x * y := mul_le_mul_of_nonneg_right ha hy
    rcases lt_trichotomy a 0 with a0 | a0 | a0
    · right; left
      cases d with
      | ninf => exact hd.elim
      | nan => exact hd.elim
      | pinf => show (Dbl.infTimes a true).Lower _; rw [infTimes_neg_true a0]; trivial
      | fin d =>
        have hd : y ≤ (d : ℝ) := hd
        exact r0 ((mul_le_mul_of_nonpos_left hd (by exact_mod_cast a0.le)).trans h1)
    · subst a0
      have h1 : 0 ≤ x * y := by simpa using h1
      cases c with
      | pinf => exact hc.elim
      | nan => exact hc.elim
      | fin c => left; exact r0 (by simpa using h1)
      | ninf =>
        cases d with
        | ninf => exact hd.elim
        | nan => exact hd.elim
        | fin d => right; left; exact r0 (by simpa using h1)
        | pinf =>
          cases b with
          | ninf => exact hb.elim
          | nan => exact hb.elim
          | pinf => right; right; left; trivial
          | fin b =>
            have hb : x ≤ (b : ℝ) := hb
            have b0 : 0 ≤ b := by exact_mod_cast ha.trans hb
            rcases b0.lt_or_eq with b0 | b0
            · right; right; left
              show (Dbl.infTimes b false).Lower _; rw [infTimes_pos_false b0]; trivial
            · subst b0
              rcases ok with h | h | h | h <;> exact absurd rfl h
    · have a1 : (0 : ℝ) ≤ a := by exact_mod_cast a0.le
      left
      cases c with
      | pinf => exact hc.elim
      | nan => exact hc.elim
      | ninf => show (Dbl.infTimes a false).Lower _; rw [infTimes_pos_false a0]; trivial
      | fin c =>
        have hc : (c : ℝ) ≤ y := hc
        exact r0 ((mul_le_mul_of_nonneg_left hc a1).trans h1)
  | ninf =>
    cases d with
    | ninf => exact hd.elim
    | nan => exact hd.elim
    | pinf => right; left; trivial
    | fin d =>
      have hd : y ≤ (d : ℝ) := hd
      have d0 : 0 ≤ d := by exact_mod_cast hy.trans hd
      rcases d0.lt_or_eq with d0 | d0
      · right; left
        show (Dbl.infTimes d false).Lower _; rw [infTimes_pos_false d0]; trivial
      · subst d0
        have y0 : y = 0 := le_antisymm (by simpa using hd) hy
        subst y0
        cases b with
        | ninf => exact hb.elim
        | nan => exact hb.elim
        | fin b => right; right; right; exact r0 (by simp)
        | pinf =>
          cases c with
          | pinf => exact hc.elim
          | nan => exact hc.elim
          | ninf => right; right; left; trivial
          | fin c =>
            have hc : (c : ℝ) ≤ 0 := hc
            have c0 : c ≤ 0 := by exact_mod_cast hc
            rcases c0.lt_or_eq with c0 | c0
            · right; right; left
              show (Dbl.infTimes c true).Lower _; rw [infTimes_neg_true c0]; trivial
            · subst c0
              rcases ok with h | h | h | h <;> exact absurd rfl h

theorem infTimes_neg (q : ℚ) (s : Bool) : Dbl.infTimes (-q) s = Dbl.infTimes q !s := by
  unfold Dbl.infTimes
  rcases lt_trichotomy q 0 with h | h | h
  · cases s <;> simp [h, h.le, h.ne]
  · simp [h]
  · cases s <;> simp [h, h.le, h.ne']

theorem mul_neg_neg' (m : Mode) (p q : Dbl) : Dbl.mul m p.neg q.neg = Dbl.mul m p q := by
  cases p <;> cases q <;> simp [Dbl.mul, Dbl.neg, infTimes_neg]

theorem mul_someLower {a b c d : Dbl} {x y : ℝ} (ha : a.Lower x) (hb : b.Upper x) (hc : c.Lower y)
    (hd : d.Upper y) (ok : SomeOk (Dbl.mul .down) a b c d) : SomeLower (Dbl.mul .down) a b c d (x * y) := by
  rcases le_total 0 y with hy | hy
  · exact mul_someLower_nonneg ha hb hc hd hy ok
  · have := mul_someLower_nonneg (Dbl.neg_lower hb) (Dbl.neg_upper ha) (Dbl.neg_lower hd) (Dbl.neg_upper hc)
      (neg_nonneg.2 hy) (by
        unfold SomeOk at ok ⊢
        simp only [mul_neg_neg']
        tauto)
    unfold SomeLower at this ⊢
    simp only [mul_neg_neg', neg_mul_neg] at this
    tauto

theorem round_up_neg (t : ℚ) : (round .up t).neg = round .down (-t) := by
  have e : ceilTo t = -floorTo (-t) := ceilTo_eq t
  have hM : (0 : ℚ) ≤ maxFin := le_trans (by norm_num) two53_le_maxFin
  simp only [round, e]
  split_ifs <;> first | rfl | (exfalso; linarith) | simp [Dbl.neg]

theorem mul_neg_up (p q : Dbl) : Dbl.mul .down p.neg q = (Dbl.mul .up p q).neg := by
  have hi : ∀ (q : ℚ) (s : Bool), Dbl.infTimes q (!s) = (Dbl.infTimes q s).neg := by
    intro q s
    unfold Dbl.infTimes
    rcases lt_trichotomy q 0 with h | h | h
    · cases s <;> simp [h.ne, h.le, not_lt.2 h.le, Dbl.neg]
    · simp [h, Dbl.neg]
    · cases s <;> simp [h.ne', h, Dbl.neg]
  cases p <;> cases q <;> simp only [Dbl.mul, Dbl.neg, infTimes_neg, neg_mul]
  · exact (round_up_neg _).symm
  all_goals first | exact hi _ true | exact hi _ false

theorem Dbl.upper_of_neg {d : Dbl} {t : ℝ} (h : d.neg.Lower (-t)) : d.Upper t := by
  have := Dbl.neg_upper h
  rw [neg_neg] at this
  cases d <;> simpa [Dbl.neg] using this

theorem Dbl.neg_ok {d : Dbl} (h : d.Ok) : d.neg.Ok := by
  cases d <;> simp_all [Dbl.Ok, Dbl.neg]

theorem mul_someUpper {a b c d : Dbl} {x y : ℝ} (ha : a.Lower x) (hb : b.Upper x) (hc : c.Lower y)
    (hd : d.Upper y) (ok : SomeOk (Dbl.mul .up) a b c d) : SomeUpper (Dbl.mul .up) a b c d (x * y) := by
  have := mul_someLower (Dbl.neg_lower hb) (Dbl.neg_upper ha) hc hd (by
    unfold SomeOk at ok ⊢
    simp only [mul_neg_up]
    rcases ok with h | h | h | h
    exacts [Or.inr (Or.inr (Or.inl (Dbl.neg_ok h))), Or.inr (Or.inr (Or.inr (Dbl.neg_ok h))), Or.inl (Dbl.neg_ok h), Or.inr (Or.inl (Dbl.neg_ok h))])
  unfold SomeLower at this
  unfold SomeUpper
  simp only [mul_neg_up, neg_mul] at this
  rcases this with h | h | h | h <;> have h := Dbl.upper_of_neg h <;> tauto

/-! ## Minimum and maximum that pass over NaN -/

theorem min2_skip {x y : Num} (hx : x.val.Ok) : (x.min2 y).val.Ok ∧ (x.min2 y = x ∨ x.min2 y = y) ∧
    Dbl.le (x.min2 y).val x.val = true ∧ (y.val.Ok → Dbl.le (x.min2 y).val y.val = true) := by
  by_cases hy : y.val.Ok
  · obtain ⟨h1, h2, h3⟩ := min2_spec hx hy
    exact ⟨by rcases h1 with h | h <;> rw [h] <;> assumption, h1, h2, fun _ => h3⟩
  · have e : x.min2 y = x := by
      have : y.val = .nan := by by_contra h; exact hy h
      unfold Num.min2 Num.lt
      rw [this, if_neg (by simp [Dbl.lt])]
    rw [e]
    exact ⟨hx, Or.inl rfl, Dbl.le_refl' hx, fun h => absurd h hy⟩

theorem max2_skip {x y : Num} (hx : x.val.Ok) : (x.max2 y).val.Ok ∧ (x.max2 y = x ∨ x.max2 y = y) ∧
    Dbl.le x.val (x.max2 y).val = true ∧ (y.val.Ok → Dbl.le y.val (x.max2 y).val = true) := by
  by_cases hy : y.val.Ok
  · obtain ⟨h1, h2, h3⟩ := max2_spec hx hy
    exact ⟨by rcases h1 with h | h <;> rw [h] <;> assumption, h1, h2, fun _ => h3⟩
  · have e : x.max2 y = x := by
      have : y.val = .nan := by by_contra h; exact hy h
      unfold Num.max2 Num.lt
      rw [this, if_neg (by cases x.val <;> simp [Dbl.lt])]
    rw [e]
    exact ⟨hx, Or.inl rfl, Dbl.le_refl' hx, fun h => absurd h hy⟩

theorem Dbl.Lower.ok {d : Dbl} {t : ℝ} (h : d.Lower t) : d.Ok := by rintro rfl; exact h
theorem Dbl.Upper.ok {d : Dbl} {t : ℝ} (h : d.Upper t) : d.Ok := by rintro rfl; exact h

/-- The least of four numbers of which the first is not NaN. -/
theorem min4_skip {x y z t : Num} (hx : x.val.Ok) :
    let m := ((x.min2 y).min2 z).min2 t
    (m = x ∨ m = y ∨ m = z ∨ m = t) ∧ ∀ r : ℝ, (x.val.Lower r ∨ y.val.Lower r ∨ z.val.Lower r ∨ t.val.Lower r) → m.val.Lower r := by
  obtain ⟨o1, c1, l1, l1'⟩ := min2_skip (y := y) hx
  obtain ⟨o2, c2, l2, l2'⟩ := min2_skip (y := z) o1
  obtain ⟨o3, c3, l3, l3'⟩ := min2_skip (y := t) o2
  refine ⟨?_, fun r hr => ?_⟩
  · rcases c3 with h | h
    · rcases c2 with h2 | h2
      · rcases c1 with h1 | h1
        · left; rw [h, h2, h1]
        · right; left; rw [h, h2, h1]
      · right; right; left; rw [h, h2]
    · right; right; right; exact h
  · rcases hr with h | h | h | h
    exacts [Dbl.lower_of_le l3 (Dbl.lower_of_le l2 (Dbl.lower_of_le l1 h)),
      Dbl.lower_of_le l3 (Dbl.lower_of_le l2 (Dbl.lower_of_le (l1' h.ok) h)),
      Dbl.lower_of_le l3 (Dbl.lower_of_le (l2' h.ok) h), Dbl.lower_of_le (l3' h.ok) h]

/-- The greatest of four numbers of which the first is not NaN. -/
theorem max4_skip {x y z t : Num} (hx : x.val.Ok) :
    let m := ((x.max2 y).max2 z).max2 t
    (m = x ∨ m = y ∨ m = z ∨ m = t) ∧ ∀ r : ℝ, (x.val.Upper r ∨ y.val.Upper r ∨ z.val.Upper r ∨ t.val.Upper r) → m.val.Upper r := by
  obtain ⟨o1, c1, l1, l1'⟩ := max2_skip (y := y) hx
  obtain ⟨o2, c2, l2, l2'⟩ := max2_skip (y := z) o1
  obtain ⟨o3, c3, l3, l3'⟩ := max2_skip (y := t) o2
  refine ⟨?_, fun r hr => ?_⟩
  · rcases c3 with h | h
    · rcases c2 with h2 | h2
      · rcases c1 with h1 | h1
        · left; rw [h, h2, h1]
        · right; left; rw [h, h2, h1]
      · right; right; left; rw [h, h2]
    · right; right; right; exact h
  · rcases hr with h | h | h | h
    exacts [Dbl.upper_of_le l3 (Dbl.upper_of_le l2 (Dbl.upper_of_le l1 h)),
      Dbl.upper_of_le l3 (Dbl.upper_of_le l2 (Dbl.upper_of_le (l1' h.ok) h)),
      Dbl.upper_of_le l3 (Dbl.upper_of_le (l2' h.ok) h), Dbl.upper_of_le (l3' h.ok) h]

/-- The common core of products and quotients. -/
theorem four_ends {P : Fin 4 → Mode → Except Err Num} {t : Fin 4 → Mode → Dbl} (s : Mode)
    (h : ∀ i m, ∃ v : Num, P i m = .ok v ∧ v.val = t i m ∧ v.IntsLe (2 ^ 53)) (cl : Cls) :
    ∃ Z : FIv, (do
      let inf ← M.withRounding .down (FIv.store (FIv.min4 (M.op (P 0)) (M.op (P 1)) (M.op (P 2)) (M.op (P 3))))
      let sup ← M.withRounding .up (FIv.store (FIv.max4 (M.op (P 0)) (M.op (P 1)) (M.op (P 2)) (M.op (P 3))))
      pure (FIv.mk cl inf sup) : M FIv) s = (.ok Z, s) ∧
      ((t 0 .down).Ok → (t 0 .up).Ok → ∀ x : ℝ, (∃ i, (t i .down).Lower x) → (∃ i, (t i .up).Upper x) → Z.Mem x) := by
  have side : ∀ m, ∃ v : Fin 4 → Num, ∀ i, P i m = .ok (v i) ∧ (v i).val = t i m ∧
      (v i).IntsLe (2 ^ 53) := fun m => ⟨fun i => (h i m).choose, fun i => (h i m).choose_spec⟩
  obtain ⟨v, hv⟩ := side .down
  obtain ⟨w, hw⟩ := side .up
  have pick2 : ∀ (f : Num → Num → Num), (∀ x y, f x y = x ∨ f x y = y) → ∀ u : Fin 4 → Num, (∀ i, (u i).IntsLe (2 ^ 53)) →
      (f (f (f (u 0) (u 1)) (u 2)) (u 3)).IntsLe (2 ^ 53) := by
    intro f hf u hu
    have step : ∀ x y, x.IntsLe (2 ^ 53) → y.IntsLe (2 ^ 53) → (f x y).IntsLe (2 ^ 53) := by
      intro x y hx hy
      rcases hf x y with h | h <;> rw [h] <;> assumption
    exact step _ _ (step _ _ (step _ _ (hu 0) (hu 1)) (hu 2)) (hu 3)
  have s1 := pick2 Num.min2 (fun x y => by unfold Num.min2; split_ifs <;> simp) v fun i => (hv i).2.2
  have s2 := pick2 Num.max2 (fun x y => by unfold Num.max2; split_ifs <;> simp) w fun i => (hw i).2.2
  refine ⟨_, run_two_ok
    (run_store (run_min4 (hv 0).1 (hv 1).1 (hv 2).1 (hv 3).1) s1)
    (run_store (run_max4 (hw 0).1 (hw 1).1 (hw 2).1 (hw 3).1) s2), ?_⟩
  rintro o1 o2 x ⟨i, hi⟩ ⟨j, hj⟩
  constructor
  · refine (min4_skip (by rw [(hv 0).2.1]; exact o1)).2 x ?_
    have hl : (v i).val.Lower x := by rw [(hv i).2.1]; exact hi
    fin_cases i
    exacts [Or.inl hl, Or.inr (Or.inl hl), Or.inr (Or.inr (Or.inl hl)), Or.inr (Or.inr (Or.inr hl))]
  · refine (max4_skip (by rw [(hw 0).2.1]; exact o2)).2 x ?_
    have hl : (w j).val.Upper x := by rw [(hw j).2.1]; exact hj
    fin_cases j
    exacts [Or.inl hl, Or.inr (Or.inl hl), Or.inr (Or.inr (Or.inl hl)), Or.inr (Or.inr (Or.inr hl))]

/-! ## C61: products -/

/-- Zero and `-inf`, in one order or the other. -/
def ZeroAndNegInf (p q : Dbl) : Prop := (p = .fin 0 ∧ q = .ninf) ∨ (p = .ninf ∧ q = .fin 0)

theorem infTimes_ok {q : ℚ} {s : Bool} : (Dbl.infTimes q s).Ok ↔ q ≠ 0 := by
  unfold Dbl.infTimes Dbl.Ok
  split_ifs <;> simp_all

theorem mul_ok_of_lower {a c : Dbl} {x y : ℝ} (m : Mode) (ha : a.Lower x) (hc : c.Lower y) :
    (Dbl.mul m a c).Ok ↔ ¬ ZeroAndNegInf a c := by
  cases a <;> cases c <;> first
    | exact ha.elim
    | exact hc.elim
    | (simp only [Dbl.mul, infTimes_ok, ZeroAndNegInf]; simp [round_ok, Dbl.Ok, round_ne_nan])

/-- C61: the product of classical intervals with finite or infinite ends encloses the products of their members exactly
when the two lower ends are not zero and `-inf`; in that case the result is `[nan, nan]`. -/
theorem C61_product_iff (X Y : FIv) (s : Mode) (cX : X.cls = .classical) (cY : Y.cls = .classical)
    (hX : X.a.IntsLe (2 ^ 26) ∧ X.b.IntsLe (2 ^ 26)) (hY : Y.a.IntsLe (2 ^ 26) ∧ Y.b.IntsLe (2 ^ 26))
    (eX : ∃ x, X.Mem x) (eY : ∃ y, Y.Mem y) :
    ∃ Z, FIv.mul X Y s = (.ok Z, s) ∧
      ((∀ x y : ℝ, X.Mem x → Y.Mem y → Z.Mem (x * y)) ↔ ¬ ZeroAndNegInf X.a.val Y.a.val) ∧
      (ZeroAndNegInf X.a.val Y.a.val → Z.a = .dbl .nan ∧ Z.b = .dbl .nan) := by
  let P : Fin 4 → Mode → Except Err Num :=
    ![fun m => Num.mul m X.a Y.a, fun m => Num.mul m X.a Y.b, fun m => Num.mul m X.b Y.a,
      fun m => Num.mul m X.b Y.b]
  let t : Fin 4 → Mode → Dbl :=
    ![fun m => Dbl.mul m X.a.val Y.a.val, fun m => Dbl.mul m X.a.val Y.b.val, fun m => Dbl.mul m X.b.val Y.a.val,
      fun m => Dbl.mul m X.b.val Y.b.val]
  have h : ∀ i m, ∃ v : Num, P i m = .ok v ∧ v.val = t i m ∧ v.IntsLe (2 ^ 53) := by
    intro i m
    fin_cases i
    exacts [num_mul m hX.1 hY.1, num_mul m hX.1 hY.2, num_mul m hX.2 hY.1, num_mul m hX.2 hY.2]
  obtain ⟨Z, hZ, hm⟩ := four_ends s h .classical
  have hZ' : FIv.mul X Y s = (.ok Z, s) := by unfold FIv.mul; rw [cX, cY]; exact hZ
  obtain ⟨x0, hx0⟩ := eX
  obtain ⟨y0, hy0⟩ := eY
  have hnan : ZeroAndNegInf X.a.val Y.a.val → Z.a = .dbl .nan ∧ Z.b = .dbl .nan := by
    intro hc
    have := C120_mul_iff X Y cX cY s Z (by rw [hZ'])
    have hp : ProdNaN X.a.val Y.a.val := by
      rcases hc with ⟨h1, h2⟩ | ⟨h1, h2⟩
      · exact Or.inr (Or.inr (Or.inl ⟨h1, Or.inr h2⟩))
      · exact Or.inr (Or.inr (Or.inr ⟨h2, Or.inr h1⟩))
    exact ⟨this.1.2 hp, this.2.2 hp⟩
  refine ⟨Z, hZ', ⟨fun hall hc => ?_, fun hc x y hx hy => ?_⟩, hnan⟩
  · have := (hall x0 y0 hx0 hy0).1
    rw [(hnan hc).1] at this
    exact this
  · have o : ∀ m, (Dbl.mul m X.a.val Y.a.val).Ok := fun m => (mul_ok_of_lower m hx.1 hy.1).2 hc
    refine hm (o _) (o _) _ ?_ ?_
    · rcases mul_someLower hx.1 hx.2 hy.1 hy.2 (Or.inl (o _)) with h | h | h | h
      exacts [⟨0, h⟩, ⟨1, h⟩, ⟨2, h⟩, ⟨3, h⟩]
    · rcases mul_someUpper hx.1 hx.2 hy.1 hy.2 (Or.inl (o _)) with h | h | h | h
      exacts [⟨0, h⟩, ⟨1, h⟩, ⟨2, h⟩, ⟨3, h⟩]

/-- `[0, 1] * [1, inf]` has a NaN among its four products and is right; `[-inf, 1] * [0, 1]` is not. -/
example : ¬ ZeroAndNegInf (.fin 0) (.fin 1) ∧ ZeroAndNegInf .ninf (.fin 0) ∧
    (FIv.mul ⟨.classical, .dbl (.fin 0), .dbl (.fin 1)⟩ ⟨.classical, .dbl (.fin 1), .dbl .pinf⟩ .nearest).1 =
      .ok ⟨.classical, .dbl (.fin 0), .dbl .pinf⟩ := by
  refine ⟨?_, Or.inr ⟨rfl, rfl⟩, by decide +kernel⟩
  rintro (⟨-, h⟩ | ⟨h, -⟩) <;> cases h

/-- C61: a finite number times a classical interval with finite or infinite ends encloses the products exactly when the number
is not zero or the lower end is not `-inf`; otherwise the result is `[nan, nan]`. -/
theorem C61_number_iff (c : Num) (q : ℚ) (X : FIv) (s : Mode) (cX : X.cls = .classical) (hq : c.val = .fin q)
    (hc : c.IntsLe (2 ^ 26)) (hX : X.a.IntsLe (2 ^ 26) ∧ X.b.IntsLe (2 ^ 26)) (eX : ∃ x, X.Mem x) :
    ∃ Z, FIv.rmul c X s = (.ok Z, s) ∧
      ((∀ x : ℝ, X.Mem x → Z.Mem (q * x)) ↔ ¬ (q = 0 ∧ X.a.val = .ninf)) ∧
      ((q = 0 ∧ X.a.val = .ninf) → Z.a = .dbl .nan ∧ Z.b = .dbl .nan) := by
  obtain ⟨v1, e1, h1, s1⟩ := num_mul .down hc hX.1
  obtain ⟨v2, e2, h2, s2⟩ := num_mul .down hc hX.2
  obtain ⟨w1, f1, g1, t1⟩ := num_mul .up hc hX.1
  obtain ⟨w2, f2, g2, t2⟩ := num_mul .up hc hX.2
  have sv : (v1.min2 v2).IntsLe (2 ^ 53) := by unfold Num.min2; split_ifs <;> assumption
  have sw : (w1.max2 w2).IntsLe (2 ^ 53) := by unfold Num.max2; split_ifs <;> assumption
  have r1 : ((do let p ← nmul c X.a; let q ← nmul c X.b; return p.min2 q : M Num) .down).1 = .ok (v1.min2 v2) := by
    simp only [FIv.nmul, run_bind, M.op, e1, e2]; rfl
  have r2 : ((do let p ← nmul c X.a; let q ← nmul c X.b; return p.max2 q : M Num) .up).1 = .ok (w1.max2 w2) := by
    simp only [FIv.nmul, run_bind, M.op, f1, f2]; rfl
  have hZ' : FIv.rmul c X s = (.ok ⟨.classical, .dbl (v1.min2 v2).val, .dbl (w1.max2 w2).val⟩, s) := by
    unfold FIv.rmul; rw [cX]
    exact run_two_ok (run_store r1 sv) (run_store r2 sw)
  obtain ⟨x0, hx0⟩ := eX
  have hnan : (q = 0 ∧ X.a.val = .ninf) → (Num.dbl (v1.min2 v2).val) = .dbl .nan ∧ (Num.dbl (w1.max2 w2).val) = .dbl .nan := by
    rintro ⟨rfl, h⟩
    have := C120_rmul_iff c X cX s _ (by rw [hZ'])
    have hp : ProdNaN c.val X.a.val := Or.inr (Or.inr (Or.inl ⟨hq, Or.inr h⟩))
    exact ⟨this.1.2 hp, this.2.2 hp⟩
  refine ⟨_, hZ', ⟨fun hall hn => ?_, fun hn x hx => ?_⟩, hnan⟩
  · have := (hall x0 hx0).1
    rw [(hnan hn).1] at this
    exact this
  · have lq : c.val.Lower q := by rw [hq]; exact le_refl _
    have uq : c.val.Upper q := by rw [hq]; exact le_refl _
    have o : ∀ m, (Dbl.mul m c.val X.a.val).Ok := by
      intro m
      rw [mul_ok_of_lower m lq hx.1]
      rintro (⟨h, h'⟩ | ⟨h, -⟩)
      · rw [hq] at h
        exact hn ⟨Dbl.fin.inj h, h'⟩
      · rw [hq] at h; cases h
    obtain ⟨-, -, a1, a2⟩ := min2_skip (x := v1) (y := v2) (by rw [h1]; exact o _)
    obtain ⟨-, -, b1, b2⟩ := max2_skip (x := w1) (y := w2) (by rw [g1]; exact o _)
    constructor
    · rcases mul_someLower lq uq hx.1 hx.2 (Or.inl (o _)) with h | h | h | h <;> [rw [← h1] at h; rw [← h2] at h; rw [← h1] at h; rw [← h2] at h]
      exacts [Dbl.lower_of_le a1 h, Dbl.lower_of_le (a2 h.ok) h, Dbl.lower_of_le a1 h, Dbl.lower_of_le (a2 h.ok) h]
    · rcases mul_someUpper lq uq hx.1 hx.2 (Or.inl (o _)) with h | h | h | h <;> [rw [← g1] at h; rw [← g2] at h; rw [← g1] at h; rw [← g2] at h]
      exacts [Dbl.upper_of_le b1 h, Dbl.upper_of_le (b2 h.ok) h, Dbl.upper_of_le b1 h, Dbl.upper_of_le (b2 h.ok) h]

/-- `0 * [1, inf]` is `[0, 0]` and `0 * [-inf, 1]` is `[nan, nan]`. -/
example : (FIv.rmul (.int 0) ⟨.classical, .dbl (.fin 1), .dbl .pinf⟩ .nearest).1 =
      .ok ⟨.classical, .dbl (.fin 0), .dbl (.fin 0)⟩ ∧
    (FIv.rmul (.int 0) ⟨.classical, .dbl .ninf, .dbl (.fin 1)⟩ .nearest).1 =
      .ok ⟨.classical, .dbl .nan, .dbl .nan⟩ := by decide +kernel

/-! ## C135: quotients -/

/-- C135, full statement: the quotient of two classical intervals, bounded or not, contains the quotients of their members. -/
def C135_statement : Prop :=
  ∀ (X Y Z : FIv) (s s' : Mode) (x y : ℝ), X.cls = .classical → Y.cls = .classical →
    (∃ d e, X.a = .dbl d ∧ X.b = .dbl e) → (∃ d e, Y.a = .dbl d ∧ Y.b = .dbl e) →
    X.Mem x → Y.Mem y → FIv.div X Y s = (.ok Z, s') → Z.Mem (x / y)

theorem num_div_val {x y : Num} (m : Mode) (hx : x.IntsLe (2 ^ 53 - 1)) (hy : y.IntsLe (2 ^ 53 - 1))
    (h0 : y.val ≠ .fin 0) :
    ∃ v : Num, Num.div m x y = .ok v ∧ Dbl.div m x.val y.val = .ok v.val ∧ v.IntsLe (2 ^ 53) := by
  have hx' := hx.mono (C := 2 ^ 53) (by norm_num)
  have hy' := hy.mono (C := 2 ^ 53) (by norm_num)
  by_cases h : ∃ z w, x = .int z ∧ y = .int w
  · obtain ⟨z, w, rfl, rfl⟩ := h
    have hw : (w : ℚ) ≠ 0 := fun e => h0 (by show Dbl.fin (w : ℚ) = .fin 0; rw [e])
    have h1 : |z| ≤ 2 ^ 53 - 1 := hx
    have h2 : |w| ≤ 2 ^ 53 - 1 := hy
    refine ⟨.dbl (round m ((z : ℚ) / w)), ?_, ?_, trivial⟩
    · simp only [Num.div]
      rw [if_neg (by exact_mod_cast hw), if_pos ⟨by omega, by omega⟩]
    · simp only [Num.val, Dbl.div, if_neg hw]
  · have gen : Num.div m x y = Num.viaDbl (Dbl.div m) x y := by
      cases x <;> cases y <;> first | rfl | exact absurd ⟨_, _, rfl, rfl⟩ h
    rw [gen, viaDbl_of_small _ hx' hy']
    have : ∃ r, Dbl.div m x.val y.val = .ok r := by
      cases hxv : x.val <;> cases hyv : y.val <;> simp only [Dbl.div] <;> first
        | exact ⟨_, rfl⟩
        | (rw [if_neg (fun e => h0 (by rw [hyv, e]))]; exact ⟨_, rfl⟩)
    obtain ⟨r, hr⟩ := this
    rw [hr]
    exact ⟨.dbl r, rfl, rfl, trivial⟩

/-- The quotient of two doubles, NaN in place of the exception. -/
def divVal (m : Mode) (p q : Dbl) : Dbl := (Dbl.div m p q).toOption.getD .nan

theorem divVal_fin (m : Mode) (p : ℚ) {q : ℚ} (h : q ≠ 0) : divVal m (.fin p) (.fin q) = round m (p / q) := by
  unfold divVal; simp only [Dbl.div, if_neg h]; rfl
theorem divVal_ninf (m : Mode) {q : ℚ} (h : q ≠ 0) : divVal m .ninf (.fin q) = Dbl.infTimes q false := by
  unfold divVal; simp only [Dbl.div, if_neg h]; rfl
theorem divVal_pinf (m : Mode) {q : ℚ} (h : q ≠ 0) : divVal m .pinf (.fin q) = Dbl.infTimes q true := by
  unfold divVal; simp only [Dbl.div, if_neg h]; rfl

theorem div_someLower_pos {a b c d : Dbl} {x y : ℝ} (ha : a.Lower x) (hc : c.Lower y)
    (hd : d.Upper y) (h0 : ¬ c.Lower 0) : SomeLower (divVal .down) a b c d (x / y) := by
  unfold SomeLower
  have r0 : ∀ {p q : ℚ} {t : ℝ}, q ≠ 0 → ((p : ℝ) / q ≤ t) → (divVal .down (.fin p) (.fin q)).Lower t := by
    intro p q t hq h
    rw [divVal_fin _ _ hq]
    exact round_down_lower (by push_cast; exact h)
  cases c with
  | pinf => exact hc.elim
  | nan => exact hc.elim
  | ninf => exact absurd trivial h0
  | fin c =>
    have hc : (c : ℝ) ≤ y := hc
    have c0 : 0 < c := by
      have : ¬ (c : ℝ) ≤ 0 := h0
      exact_mod_cast not_le.1 this
    have c0' : (0 : ℝ) < c := by exact_mod_cast c0
    have y0 : 0 < y := c0'.trans_le hc
    cases a with
    | pinf => exact ha.elim
    | nan => exact ha.elim
    | ninf => left; rw [divVal_ninf _ c0.ne', infTimes_pos_false c0]; trivial
    | fin a =>
      have ha : (a : ℝ) ≤ x := ha
      have h1 : (a : ℝ) / y ≤ x / y := div_le_div_of_nonneg_right ha y0.le
      rcases le_or_gt 0 a with a0 | a0
      · have a1 : (0 : ℝ) ≤ a := by exact_mod_cast a0
        right; left
        cases d with
        | ninf => exact hd.elim
        | nan => exact hd.elim
        | pinf =>
          show ((0 : ℚ) : ℝ) ≤ x / y
          rw [Rat.cast_zero]
          exact div_nonneg (a1.trans ha) y0.le
        | fin d =>
          have hd : y ≤ (d : ℝ) := hd
          have d0 : (0 : ℝ) < d := y0.trans_le hd
          exact r0 (by rintro rfl; simp at d0) ((div_le_div_of_nonneg_left a1 y0 hd).trans h1)
      · left
        have a1 : (a : ℝ) ≤ 0 := by exact_mod_cast a0.le
        refine r0 c0.ne' (le_trans ?_ h1)
        have := div_le_div_of_nonneg_left (neg_nonneg.2 a1) c0' hc
        rw [neg_div, neg_div] at this
        linarith

theorem div_neg_neg' (m : Mode) {p q : Dbl} : divVal m p.neg q.neg = divVal m p q := by
  unfold divVal
  cases p <;> cases q <;> simp [Dbl.div, Dbl.neg, infTimes_neg]

theorem div_someLower {a b c d : Dbl} {x y : ℝ} (ha : a.Lower x) (hb : b.Upper x) (hc : c.Lower y)
    (hd : d.Upper y) (h0 : ¬ (c.Lower 0 ∧ d.Upper 0)) : SomeLower (divVal .down) a b c d (x / y) := by
  by_cases h : c.Lower 0
  · have h1 : ¬ d.neg.Lower 0 := fun h' => h0 ⟨h, Dbl.upper_of_neg (by rw [neg_zero]; exact h')⟩
    have := div_someLower_pos (b := a.neg) (Dbl.neg_lower hb) (Dbl.neg_lower hd) (Dbl.neg_upper hc) h1
    unfold SomeLower at this ⊢
    simp only [div_neg_neg', neg_div_neg_eq] at this
    tauto
  · exact div_someLower_pos ha hc hd h

theorem div_neg_up {p q : Dbl} (h : q ≠ .fin 0) : divVal .down p.neg q = (divVal .up p q).neg := by
  have hi : ∀ (q : ℚ) (s : Bool), Dbl.infTimes q (!s) = (Dbl.infTimes q s).neg := by
    intro q s
    unfold Dbl.infTimes
    rcases lt_trichotomy q 0 with h | h | h
    · cases s <;> simp [h.ne, h.le, not_lt.2 h.le, Dbl.neg]
    · simp [h, Dbl.neg]
    · cases s <;> simp [h.ne', h, Dbl.neg]
  cases q with
  | fin q =>
    have hq : q ≠ 0 := fun e => h (by rw [e])
    cases p with
    | fin p =>
      show divVal .down (.fin (-p)) (.fin q) = _
      rw [divVal_fin _ _ hq, divVal_fin _ _ hq, neg_div, round_up_neg]
    | pinf =>
      show divVal .down .ninf (.fin q) = _
      rw [divVal_ninf _ hq, divVal_pinf _ hq]; exact hi _ true
    | ninf =>
      show divVal .down .pinf (.fin q) = _
      rw [divVal_pinf _ hq, divVal_ninf _ hq]; exact hi _ false
    | nan => unfold divVal; simp [Dbl.div, Dbl.neg, hq, Except.toOption]
  | _ => cases p <;> first | rfl | (unfold divVal; simp [Dbl.div, Dbl.neg])

theorem ne_zero_of_bounds {c d : Dbl} {y : ℝ} (hc : c.Lower y) (hd : d.Upper y) (h0 : ¬ (c.Lower 0 ∧ d.Upper 0)) :
    c ≠ .fin 0 ∧ d ≠ .fin 0 := by
  constructor
  · rintro rfl
    have : (0 : ℝ) ≤ y := by simpa [Dbl.Lower] using hc
    refine h0 ⟨by simp [Dbl.Lower], ?_⟩
    cases d with
    | fin d => exact this.trans hd
    | pinf => trivial
    | ninf => exact hd
    | nan => exact hd
  · rintro rfl
    have : y ≤ (0 : ℝ) := by simpa [Dbl.Upper] using hd
    refine h0 ⟨?_, by simp [Dbl.Upper]⟩
    cases c with
    | fin d => exact le_trans hc this
    | ninf => trivial
    | pinf => exact hc
    | nan => exact hc

theorem div_someUpper {a b c d : Dbl} {x y : ℝ} (ha : a.Lower x) (hb : b.Upper x) (hc : c.Lower y)
    (hd : d.Upper y) (h0 : ¬ (c.Lower 0 ∧ d.Upper 0)) : SomeUpper (divVal .up) a b c d (x / y) := by
  obtain ⟨n1, n2⟩ := ne_zero_of_bounds hc hd h0
  have := div_someLower (Dbl.neg_lower hb) (Dbl.neg_upper ha) hc hd h0
  unfold SomeLower at this
  unfold SomeUpper
  simp only [div_neg_up n1, div_neg_up n2, neg_div] at this
  rcases this with h | h | h | h <;> have h := Dbl.upper_of_neg h <;> tauto

theorem div_ok_of_lower {a c : Dbl} {x y : ℝ} (m : Mode) (ha : a.Lower x) (hc : c.Lower y) (h0 : c ≠ .fin 0) :
    (divVal m a c).Ok ↔ ¬ (a = .ninf ∧ c = .ninf) := by
  cases c with
  | pinf => exact hc.elim
  | nan => exact hc.elim
  | ninf =>
    cases a with
    | pinf => exact ha.elim
    | nan => exact ha.elim
    | _ => simp [divVal, Dbl.div, Dbl.Ok, Except.toOption]
  | fin q =>
    have hq : q ≠ 0 := fun e => h0 (by rw [e])
    cases a with
    | pinf => exact ha.elim
    | nan => exact ha.elim
    | ninf => rw [divVal_ninf _ hq, infTimes_ok]; simp [hq]
    | fin p => rw [divVal_fin _ _ hq]; simp [Dbl.Ok, round_ne_nan]

/-- C135: dividing by a classical interval that contains zero raises; otherwise the quotient of classical intervals with
finite or infinite ends encloses the quotients of their members exactly when the two lower ends are not both `-inf`; in that
case the result is `[nan, nan]`. -/
theorem C135_quotient_iff (X Y : FIv) (s : Mode) (cX : X.cls = .classical) (cY : Y.cls = .classical)
    (hX : X.a.IntsLe (2 ^ 53 - 1) ∧ X.b.IntsLe (2 ^ 53 - 1)) (hY : Y.a.IntsLe (2 ^ 53 - 1) ∧ Y.b.IntsLe (2 ^ 53 - 1))
    (eX : ∃ x, X.Mem x) (eY : ∃ y, Y.Mem y) :
    (Y.Mem 0 → FIv.div X Y s = (.error .valueError, s)) ∧
    (¬ Y.Mem 0 → ∃ Z, FIv.div X Y s = (.ok Z, s) ∧
      ((∀ x y : ℝ, X.Mem x → Y.Mem y → Z.Mem (x / y)) ↔ ¬ (X.a.val = .ninf ∧ Y.a.val = .ninf)) ∧
      ((X.a.val = .ninf ∧ Y.a.val = .ninf) → Z.a = .dbl .nan ∧ Z.b = .dbl .nan)) := by
  obtain ⟨x0, hx0⟩ := eX
  obtain ⟨y0, hy0⟩ := eY
  have hzero : Y.containsNum (.dbl (.fin 0)) = true ↔ Y.Mem 0 := by
    show (Dbl.le Y.a.val (.fin 0) && Dbl.le (.fin 0) Y.b.val) = true ↔ Y.a.val.Lower 0 ∧ Y.b.val.Upper 0
    cases Y.a.val <;> cases Y.b.val <;> simp [Dbl.le, Dbl.Lower, Dbl.Upper]
  refine ⟨fun h0 => by unfold FIv.div; rw [if_pos (hzero.2 h0)]; rfl, fun h0 => ?_⟩
  obtain ⟨n1, n2⟩ := ne_zero_of_bounds hy0.1 hy0.2 h0
  let P : Fin 4 → Mode → Except Err Num :=
    ![fun m => Num.div m X.a Y.a, fun m => Num.div m X.a Y.b, fun m => Num.div m X.b Y.a,
      fun m => Num.div m X.b Y.b]
  let t : Fin 4 → Mode → Dbl :=
    ![fun m => divVal m X.a.val Y.a.val, fun m => divVal m X.a.val Y.b.val, fun m => divVal m X.b.val Y.a.val,
      fun m => divVal m X.b.val Y.b.val]
  have key : ∀ {x y : Num} (m : Mode), x.IntsLe (2 ^ 53 - 1) → y.IntsLe (2 ^ 53 - 1) → y.val ≠ .fin 0 →
      ∃ v : Num, Num.div m x y = .ok v ∧ v.val = divVal m x.val y.val ∧ v.IntsLe (2 ^ 53) := by
    intro x y m h1 h2 h3
    obtain ⟨v, e1, e2, e3⟩ := num_div_val m h1 h2 h3
    exact ⟨v, e1, by unfold divVal; rw [e2]; rfl, e3⟩
  have h : ∀ i m, ∃ v : Num, P i m = .ok v ∧ v.val = t i m ∧ v.IntsLe (2 ^ 53) := by
    intro i m
    fin_cases i
    exacts [key m hX.1 hY.1 n1, key m hX.1 hY.2 n2, key m hX.2 hY.1 n1, key m hX.2 hY.2 n2]
  obtain ⟨Z, hZ, hm⟩ := four_ends s h .classical
  have hZ' : FIv.div X Y s = (.ok Z, s) := by
    unfold FIv.div; rw [if_neg (by rw [hzero]; exact h0), cX, cY]; exact hZ
  have hnan : (X.a.val = .ninf ∧ Y.a.val = .ninf) → Z.a = .dbl .nan ∧ Z.b = .dbl .nan := by
    rintro ⟨h1, h2⟩
    have := C120_div_iff X Y cX cY s Z (by rw [hZ'])
    have hp : QuotNaN X.a.val Y.a.val := Or.inr (Or.inr ⟨Or.inr h1, Or.inr h2⟩)
    exact ⟨this.1.2 hp, this.2.2 hp⟩
  refine ⟨Z, hZ', ⟨fun hall hc => ?_, fun hc x y hx hy => ?_⟩, hnan⟩
  · have := (hall x0 y0 hx0 hy0).1
    rw [(hnan hc).1] at this
    exact this
  · have o : ∀ m, (divVal m X.a.val Y.a.val).Ok := fun m => (div_ok_of_lower m hx.1 hy.1 n1).2 hc
    refine hm (o _) (o _) _ ?_ ?_
    · rcases div_someLower hx.1 hx.2 hy.1 hy.2 h0 with h | h | h | h
      exacts [⟨0, h⟩, ⟨1, h⟩, ⟨2, h⟩, ⟨3, h⟩]
    · rcases div_someUpper hx.1 hx.2 hy.1 hy.2 h0 with h | h | h | h
      exacts [⟨0, h⟩, ⟨1, h⟩, ⟨2, h⟩, ⟨3, h⟩]

/-- C135 is false: `[-inf, 1] / [-inf, -1]` is `[nan, nan]`. -/
theorem C135_false : ¬ C135_statement := by
  intro h
  have hr : FIv.div ⟨.classical, .dbl .ninf, .dbl (.fin 1)⟩ ⟨.classical, .dbl .ninf, .dbl (.fin (-1))⟩ .nearest
      = (.ok ⟨.classical, .dbl .nan, .dbl .nan⟩, .nearest) := by decide +kernel
  exact (h ⟨.classical, .dbl .ninf, .dbl (.fin 1)⟩ ⟨.classical, .dbl .ninf, .dbl (.fin (-1))⟩ _ _ _ 0 (-1) rfl rfl ⟨_, _, rfl, rfl⟩ ⟨_, _, rfl, rfl⟩ ⟨trivial, by norm_num [Num.val, Dbl.Upper]⟩
    ⟨trivial, by norm_num [Num.val, Dbl.Upper]⟩ hr).1

/-- C135, the part that holds: the lower ends are not both `-inf`. -/
theorem C135_quotient_partial (X Y Z : FIv) (s s' : Mode) (x y : ℝ) (cX : X.cls = .classical) (cY : Y.cls = .classical)
    (hX : ∃ d e, X.a = .dbl d ∧ X.b = .dbl e) (hY : ∃ d e, Y.a = .dbl d ∧ Y.b = .dbl e) (hx : X.Mem x) (hy : Y.Mem y)
    (hn : ¬ (X.a.val = .ninf ∧ Y.a.val = .ninf)) (h : FIv.div X Y s = (.ok Z, s')) : Z.Mem (x / y) := by
  obtain ⟨d, e, h1, h2⟩ := hX
  obtain ⟨d', e', h3, h4⟩ := hY
  obtain ⟨k1, k2⟩ := C135_quotient_iff X Y s cX cY (by rw [h1, h2]; exact ⟨trivial, trivial⟩)
    (by rw [h3, h4]; exact ⟨trivial, trivial⟩) ⟨x, hx⟩ ⟨y, hy⟩
  by_cases h0 : Y.Mem 0
  · rw [k1 h0] at h; cases h
  · obtain ⟨Z', hZ', hi, -⟩ := k2 h0
    rw [hZ'] at h
    cases h
    exact hi.2 hn x y hx hy

/-- `[1, inf] / [1, inf]` has a NaN among its four quotients and is `[0, inf]`. -/
example : (FIv.div ⟨.classical, .dbl (.fin 1), .dbl .pinf⟩ ⟨.classical, .dbl (.fin 1), .dbl .pinf⟩ .nearest).1 =
    .ok ⟨.classical, .dbl (.fin 0), .dbl .pinf⟩ := by decide +kernel

/-! ## C05: a number divided by an interval with finite or infinite ends -/

theorem lower_trans {a : Dbl} {x y : ℝ} (h : a.Lower x) (hxy : x ≤ y) : a.Lower y := by
  cases a with
  | fin q => exact le_trans h hxy
  | ninf => trivial
  | pinf => exact h
  | nan => exact h

theorem recip_lower {a b : Dbl} {x : ℝ} (ha : a.Lower x) (hb : b.Upper x) (h0 : ¬ (a.Lower 0 ∧ b.Upper 0)) :
    (divVal .down (.fin 1) b).Lower (1 / x) := by
  have x0 : x ≠ 0 := by rintro rfl; exact h0 ⟨ha, hb⟩
  cases b with
  | ninf => exact hb.elim
  | nan => exact hb.elim
  | pinf =>
    have : ¬ x ≤ 0 := fun h => h0 ⟨lower_trans ha h, trivial⟩
    show ((0 : ℚ) : ℝ) ≤ 1 / x
    rw [Rat.cast_zero]
    exact (one_div_pos.2 (not_le.1 this)).le
  | fin b =>
    have hb : x ≤ (b : ℝ) := hb
    rcases lt_or_gt_of_ne x0 with h | h
    · have b0 : (b : ℝ) < 0 := by
        by_contra hb'
        exact h0 ⟨lower_trans ha h.le, not_lt.1 hb'⟩
      rw [divVal_fin _ _ (by rintro rfl; simp at b0)]
      exact round_down_lower (by push_cast; exact one_div_le_one_div_of_neg_of_le b0 hb)
    · have b0 : (0 : ℝ) < b := h.trans_le hb
      rw [divVal_fin _ _ (by rintro rfl; simp at b0)]
      exact round_down_lower (by push_cast; exact one_div_le_one_div_of_le h hb)

theorem recip_upper {a b : Dbl} {x : ℝ} (ha : a.Lower x) (hb : b.Upper x) (h0 : ¬ (a.Lower 0 ∧ b.Upper 0)) :
    (divVal .up (.fin 1) a).Upper (1 / x) := by
  have na : a ≠ .fin 0 := (ne_zero_of_bounds ha hb h0).1
  have h := recip_lower (Dbl.neg_lower hb) (Dbl.neg_upper ha) (fun h => h0 ⟨?_, ?_⟩)
  · have e : divVal .down (.fin 1) a.neg = (divVal .up (.fin 1) a).neg := by
      rw [← div_neg_up na, ← div_neg_neg' .down (p := (Dbl.fin 1).neg)]
      simp [Dbl.neg]
    rw [e, one_div_neg_eq_neg_one_div] at h
    exact Dbl.upper_of_neg h
  · have := Dbl.neg_lower h.2
    rw [neg_zero] at this
    cases a <;> simpa [Dbl.neg, Dbl.Lower] using this
  · have := Dbl.neg_upper h.1
    rw [neg_zero] at this
    cases b <;> simpa [Dbl.neg, Dbl.Upper] using this

/-- C05 in binary64: a finite number divided by a classical interval without zero, with finite or infinite ends, encloses the
quotients exactly unless the number is zero and the reciprocal of the upper end overflows to `-inf`. -/
theorem C05_rdiv_iff (c : Num) (q : ℚ) (X : FIv) (s : Mode) (cX : X.cls = .classical) (hq : c.val = .fin q)
    (hc : c.IntsLe (2 ^ 26)) (hX : X.a.IntsLe (2 ^ 53 - 1) ∧ X.b.IntsLe (2 ^ 53 - 1)) (eX : ∃ x, X.Mem x) (h0 : ¬ X.Mem 0) :
    ∃ Z, FIv.rdiv c X s = (.ok Z, s) ∧
      ((∀ x : ℝ, X.Mem x → Z.Mem (q / x)) ↔ ¬ (q = 0 ∧ ∃ b, X.b.val = .fin b ∧ round .down (1 / b) = .ninf)) := by
  obtain ⟨x0, hx0⟩ := eX
  have hzero : X.containsNum (.dbl (.fin 0)) = true ↔ X.Mem 0 := by
    show (Dbl.le X.a.val (.fin 0) && Dbl.le (.fin 0) X.b.val) = true ↔ X.a.val.Lower 0 ∧ X.b.val.Upper 0
    cases X.a.val <;> cases X.b.val <;> simp [Dbl.le, Dbl.Lower, Dbl.Upper]
  obtain ⟨na, nb⟩ := ne_zero_of_bounds hx0.1 hx0.2 h0
  obtain ⟨v, hv, ev, sv⟩ := num_div_val (x := .dbl (.fin 1)) .down trivial hX.2 nb
  obtain ⟨w, hw, ew, sw⟩ := num_div_val (x := .dbl (.fin 1)) .up trivial hX.1 na
  have ev : v.val = divVal .down (.fin 1) X.b.val := by unfold divVal; rw [show Dbl.div .down (.fin 1) X.b.val = _ from ev]; rfl
  have ew : w.val = divVal .up (.fin 1) X.a.val := by unfold divVal; rw [show Dbl.div .up (.fin 1) X.a.val = _ from ew]; rfl
  have hrec : FIv.recip X.cls X s = (.ok ⟨X.cls, .dbl v.val, .dbl w.val⟩, s) :=
    run_two_ok (run_store (x := ndiv (.dbl (.fin 1)) X.b) (m := .down) hv sv)
      (run_store (x := ndiv (.dbl (.fin 1)) X.a) (m := .up) hw sw)
  have hmem : ∀ x, X.Mem x → (FIv.mk X.cls (.dbl v.val) (.dbl w.val)).Mem (1 / x) := by
    intro x hx
    refine ⟨?_, ?_⟩
    · show v.val.Lower _
      rw [ev]; exact recip_lower hx.1 hx.2 h0
    · show w.val.Upper _
      rw [ew]; exact recip_upper hx.1 hx.2 h0
  obtain ⟨Z, hZ, hi, hn⟩ := C61_number_iff c q ⟨X.cls, .dbl v.val, .dbl w.val⟩ s cX hq hc ⟨trivial, trivial⟩ ⟨_, hmem x0 hx0⟩
  have hover : v.val = .ninf ↔ ∃ b, X.b.val = .fin b ∧ round .down (1 / b) = .ninf := by
    rw [ev]
    cases hb : X.b.val with
    | fin b =>
      rw [divVal_fin _ _ (fun e => nb (by rw [hb, e]))]
      simp
    | pinf => simp [divVal, Dbl.div, Except.toOption]
    | ninf => have := hx0.2; rw [hb] at this; exact this.elim
    | nan => have := hx0.2; rw [hb] at this; exact this.elim
  refine ⟨Z, ?_, ?_⟩
  · unfold FIv.rdiv
    rw [if_neg (by rw [hzero]; exact h0), run_bind, hrec]
    exact hZ
  · rw [← hover]
    constructor
    · intro h hbad
      have := (h x0 hx0).1
      rw [(hn hbad).1] at this
      exact this
    · intro h x hx
      have := hi.2 h (1 / x) (hmem x hx)
      rwa [mul_one_div] at this

/-- `0 / [1, inf]` is `[0, 0]`; `1 / [-inf, -2]` is `[-1/2, 0]`. -/
example : (FIv.rdiv (.int 0) ⟨.classical, .dbl (.fin 1), .dbl .pinf⟩ .nearest).1 =
      .ok ⟨.classical, .dbl (.fin 0), .dbl (.fin 0)⟩ ∧
    (FIv.rdiv (.int 1) ⟨.classical, .dbl .ninf, .dbl (.fin (-2))⟩ .nearest).1 =
      .ok ⟨.classical, .dbl (.fin (-1 / 2)), .dbl (.fin 0)⟩ := by decide +kernel

end IntvalPy
