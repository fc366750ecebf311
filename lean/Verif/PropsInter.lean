import Verif.PropsNaN
import Verif.PropsRefine
import Verif.PropsObjects
import Verif.ModelInter

/-!
# `intersection` with binary64 endpoints (C23, C120)

Infinite endpoints, NaN endpoints and integers included.
-/

set_option autoImplicit false
set_option linter.unusedSectionVars false

namespace IntvalPy
open FIv

/-- A finite `float` holds a binary64 value. -/
def Num.Valid : Num → Prop
  | .dbl (.fin q) => IsF q ∧ |q| ≤ maxFin
  | _ => True

/-- The larger lower end, as the code chooses it. -/
def interLo (X Y : FIv) : Num := if X.a.lt Y.a then Y.a else X.a

/-- The smaller upper end, as the code chooses it. -/
def interHi (X Y : FIv) : Num := if X.b.lt Y.b then X.b else Y.b

theorem run_intersect (X Y : FIv) (s : Mode) : FIv.intersect X Y s =
    (match Num.sub s (interLo X Y) (interHi X Y) with
      | .error e => .error e
      | .ok d => .ok (if d.le (.dbl (.fin interTol)) then
          (if (interHi X Y).lt (interLo X Y) then ⟨.classical, interHi X Y, interLo X Y⟩
            else ⟨.classical, interLo X Y, interHi X Y⟩)
        else ⟨.classical, .dbl .nan, .dbl .nan⟩), s) := by
  unfold FIv.intersect
  change (FIv.nsub (interLo X Y) (interHi X Y) >>= _) s = _
  rw [run_bind]
  have e : FIv.nsub (interLo X Y) (interHi X Y) s = (Num.sub s (interLo X Y) (interHi X Y), s) := rfl
  rw [e]
  cases Num.sub s (interLo X Y) (interHi X Y) with
  | error e => rfl
  | ok d =>
    dsimp only
    by_cases h : d.le (.dbl (.fin interTol)) = true
    · rw [if_pos h, if_pos h]
      rfl
    · rw [if_neg h, if_neg h]
      rfl

theorem lower_of_lt {d e : Dbl} {x : ℝ} (h : Dbl.lt d e = true) (he : e.Lower x) : d.Lower x := by
  cases d <;> cases e <;> simp only [Dbl.lt, Dbl.Lower, decide_eq_true_eq, Bool.false_eq_true] at *
  rename_i p q
  have : (p : ℝ) < q := by exact_mod_cast h
  linarith

theorem lower_of_not_lt {d e : Dbl} {x : ℝ} (h : ¬ Dbl.lt d e = true) (hn : e ≠ .nan) (he : d.Lower x) : e.Lower x := by
  cases d <;> cases e <;> simp_all only [Dbl.lt, Dbl.Lower, decide_eq_true_eq, Bool.false_eq_true, not_true_eq_false, not_lt, ne_eq]
  rename_i p q
  have : (q : ℝ) ≤ p := by exact_mod_cast h
  linarith

theorem upper_of_lt {d e : Dbl} {x : ℝ} (h : Dbl.lt d e = true) (he : d.Upper x) : e.Upper x := by
  cases d <;> cases e <;> simp only [Dbl.lt, Dbl.Upper, decide_eq_true_eq, Bool.false_eq_true] at *
  rename_i p q
  have : (p : ℝ) < q := by exact_mod_cast h
  linarith

theorem upper_of_not_lt {d e : Dbl} {x : ℝ} (h : ¬ Dbl.lt d e = true) (hn : d ≠ .nan) (he : e.Upper x) : d.Upper x := by
  cases d <;> cases e <;> simp_all only [Dbl.lt, Dbl.Upper, decide_eq_true_eq, Bool.false_eq_true, not_true_eq_false, not_lt, ne_eq]
  rename_i p q
  have : (q : ℝ) ≤ p := by exact_mod_cast h
  linarith

theorem interLo_lower {X Y : FIv} (hX : X.a.val ≠ .nan) (hY : Y.a.val ≠ .nan) (x : ℝ) :
    (interLo X Y).val.Lower x ↔ X.a.val.Lower x ∧ Y.a.val.Lower x := by
  unfold interLo
  split_ifs with h
  · exact ⟨fun h1 => ⟨lower_of_lt h h1, h1⟩, And.right⟩
  · exact ⟨fun h1 => ⟨h1, lower_of_not_lt h hY h1⟩, And.left⟩

theorem interHi_upper {X Y : FIv} (hX : X.b.val ≠ .nan) (hY : Y.b.val ≠ .nan) (x : ℝ) :
    (interHi X Y).val.Upper x ↔ X.b.val.Upper x ∧ Y.b.val.Upper x := by
  unfold interHi
  split_ifs with h
  · exact ⟨fun h1 => ⟨h1, upper_of_lt h h1⟩, And.left⟩
  · exact ⟨fun h1 => ⟨upper_of_not_lt h hX h1, h1⟩, And.right⟩

theorem lower_ne_nan {d : Dbl} {x : ℝ} (h : d.Lower x) : d ≠ .nan := by rintro rfl; exact h
theorem upper_ne_nan {d : Dbl} {x : ℝ} (h : d.Upper x) : d ≠ .nan := by rintro rfl; exact h

theorem interTol_pos : (0 : ℚ) < interTol := by norm_num [interTol]

/-- Rounding keeps the sign. -/
theorem round_nonpos (m : Mode) {t : ℚ} (h : t ≤ 0) : Dbl.le (round m t) (.fin interTol) = true := by
  have hf : (floorTo t : ℚ) ≤ 0 := (floorTo_le t).trans h
  have hc : (ceilTo t : ℚ) ≤ 0 := ceilTo_le isF_zero h
  have hn : (nearTo t : ℚ) ≤ 0 := (nearTo_le_ceilTo t).trans hc
  have hM : (0 : ℚ) < maxFin := by unfold maxFin; positivity
  have ht := interTol_pos
  cases m <;> simp only [round] <;> split_ifs <;>
    first
    | rfl
    | (simp only [Dbl.le, decide_eq_true_eq]; linarith)
    | (exfalso; linarith)

theorem toDbl_lo {z : Num} {p : Dbl} {q : ℚ} (hz : z.toDbl = .ok p) (hq : IsF q) (h : ∃ t, z.val = .fin t ∧ t ≤ q) :
    ∃ p', p = .fin p' ∧ p' ≤ q := by
  obtain ⟨t, h1, h2⟩ := h
  cases z with
  | dbl d => cases hz; exact ⟨t, h1, h2⟩
  | int z =>
    simp only [Num.val, Dbl.fin.injEq] at h1
    simp only [Num.toDbl] at hz
    cases hr : round .nearest (z : ℚ) with
    | fin r =>
      rw [hr] at hz
      cases hz
      simp only [round] at hr
      split_ifs at hr
      cases hr
      exact ⟨_, rfl, (nearTo_le_ceilTo _).trans (ceilTo_le hq (h1 ▸ h2))⟩
    | pinf => rw [hr] at hz; cases hz
    | ninf => rw [hr] at hz; cases hz
    | nan => rw [hr] at hz; cases hz

theorem toDbl_hi {z : Num} {p : Dbl} {q : ℚ} (hz : z.toDbl = .ok p) (hq : IsF q) (h : ∃ t, z.val = .fin t ∧ q ≤ t) :
    ∃ p', p = .fin p' ∧ q ≤ p' := by
  obtain ⟨t, h1, h2⟩ := h
  cases z with
  | dbl d => cases hz; exact ⟨t, h1, h2⟩
  | int z =>
    simp only [Num.val, Dbl.fin.injEq] at h1
    simp only [Num.toDbl] at hz
    cases hr : round .nearest (z : ℚ) with
    | fin r =>
      rw [hr] at hz
      cases hz
      simp only [round] at hr
      split_ifs at hr
      cases hr
      refine ⟨_, rfl, ?_⟩
      rcases nearTo_choice (z : ℚ) with e | e <;> rw [e]
      · exact le_floorTo hq (h1 ▸ h2)
      · exact (le_floorTo hq (h1 ▸ h2)).trans ((floorTo_le _).trans (le_ceilTo _))
    | pinf => rw [hr] at hz; cases hz
    | ninf => rw [hr] at hz; cases hz
    | nan => rw [hr] at hz; cases hz

/-- With a common real number the computed difference passes the test. -/
theorem diff_passes {m : Mode} {u v d : Num} {x : ℝ} (hu : u.Valid) (hv : v.Valid) (h1 : u.val.Lower x) (h2 : v.val.Upper x)
    (h : Num.sub m u v = .ok d) : d.le (.dbl (.fin interTol)) = true := by
  have ht := interTol_pos
  have fin : ∀ {p q : Dbl}, (p = .ninf ∧ q ≠ .ninf ∧ q ≠ .nan ∨ q = .pinf ∧ p ≠ .pinf ∧ p ≠ .nan ∨
      ∃ a b, p = .fin a ∧ q = .fin b ∧ a ≤ b) → Dbl.le (Dbl.sub m p q) (.fin interTol) = true := by
    rintro p q (⟨rfl, h1, h2⟩ | ⟨rfl, h1, h2⟩ | ⟨a, b, rfl, rfl, h1⟩)
    · cases q <;> simp_all [Dbl.sub, Dbl.neg, Dbl.add, Dbl.le]
    · cases p <;> simp_all [Dbl.sub, Dbl.neg, Dbl.add, Dbl.le]
    · exact round_nonpos m (by linarith : a + -b ≤ 0)
  cases u with
  | int z =>
    cases v with
    | int w =>
      cases h
      have a1 : ((z : ℚ) : ℝ) ≤ x := h1
      have a2 : x ≤ ((w : ℚ) : ℝ) := h2
      have : (z : ℚ) ≤ w := by exact_mod_cast a1.trans a2
      have : ((z - w : ℤ) : ℚ) ≤ interTol := by push_cast; linarith
      simpa [Num.le, Num.val, Dbl.le] using this
    | dbl e =>
      obtain ⟨p, q, d, hp, hq, hd, rfl⟩ := viaDbl_ok h
      cases hd
      cases hq
      refine fin ?_
      cases e with
      | fin q =>
        have a1 : ((z : ℚ) : ℝ) ≤ x := h1
        have a2 : x ≤ (q : ℝ) := h2
        obtain ⟨p', rfl, h3⟩ := toDbl_lo hp hv.1 ⟨z, rfl, by exact_mod_cast a1.trans a2⟩
        exact Or.inr (Or.inr ⟨_, _, rfl, rfl, h3⟩)
      | pinf =>
        refine Or.inr (Or.inl ⟨rfl, fun h => ?_, fun h => ?_⟩)
        · exact absurd ((toDbl_val hp).2.1.1 h) (by simp [Num.val])
        · exact absurd ((toDbl_val hp).1.1 h) (by simp [Num.val])
      | ninf => exact h2.elim
      | nan => exact h2.elim
  | dbl e =>
    have : ∃ p q d', Num.toDbl (.dbl e) = .ok p ∧ v.toDbl = .ok q ∧ Except.ok (Dbl.sub m p q) = Except.ok (ε := Err) d' ∧ d = .dbl d' :=
      viaDbl_ok h
    obtain ⟨p, q, d, hp, hq, hd, rfl⟩ := this
    cases hd
    cases hp
    refine fin ?_
    have hqv := toDbl_val hq
    cases e with
    | ninf =>
      refine Or.inl ⟨rfl, fun h => ?_, fun h => ?_⟩
      · rw [hqv.2.2.1.1 h] at h2; exact h2
      · rw [hqv.1.1 h] at h2; exact h2
    | fin a =>
      have a1 : (a : ℝ) ≤ x := h1
      cases hvv : v.val with
      | fin b =>
        rw [hvv] at h2
        have a2 : x ≤ (b : ℝ) := h2
        obtain ⟨p', rfl, h3⟩ := toDbl_hi hq hu.1 ⟨b, hvv, by exact_mod_cast a1.trans a2⟩
        exact Or.inr (Or.inr ⟨_, _, rfl, rfl, h3⟩)
      | pinf => exact Or.inr (Or.inl ⟨hqv.2.1.2 hvv, by simp, by simp⟩)
      | ninf => rw [hvv] at h2; exact h2.elim
      | nan => rw [hvv] at h2; exact h2.elim
    | pinf => exact h1.elim
    | nan => exact h1.elim

theorem sub_error {m : Mode} {u v : Num} {e : Err} (h : Num.sub m u v = .error e) : e = .overflowError := by
  have via : ∀ {u v : Num}, Num.viaDbl (fun p q => .ok (Dbl.sub m p q)) u v = .error e → e = .overflowError := by
    intro u v h
    have one : ∀ {w : Num} {e' : Err}, w.toDbl = .error e' → e' = .overflowError := by
      intro w e' hw
      cases w with
      | dbl d => cases hw
      | int z =>
        simp only [Num.toDbl] at hw
        split at hw <;> cases hw
        rfl
    unfold Num.viaDbl at h
    cases hu : u.toDbl with
    | error e' => rw [hu] at h; cases h; exact one hu
    | ok p =>
      cases hv : v.toDbl with
      | error e' => rw [hu, hv] at h; cases h; exact one hv
      | ok q => rw [hu, hv] at h; cases h
  cases u with
  | int z => cases v with
    | int w => cases h
    | dbl d => exact via h
  | dbl d => exact via h

/-- C23 with binary64 endpoints, finite or infinite, in any rounding mode: if the two intervals have a common real number,
`intersection` returns the interval of exactly the common numbers (its ends are ends of the operands), or raises
`OverflowError`; with integers of at most 52 bits it does not raise.  The rounding mode is left alone. -/
theorem C23_float_common (X Y : FIv) (hXa : X.a.Valid) (hXb : X.b.Valid) (hYa : Y.a.Valid) (hYb : Y.b.Valid) (s : Mode)
    (x : ℝ) (hX : X.Mem x) (hY : Y.Mem x) :
    (FIv.intersect X Y s = (.error .overflowError, s) ∨
      ∃ Z, FIv.intersect X Y s = (.ok Z, s) ∧ Z.cls = .classical ∧ (∀ t, Z.Mem t ↔ X.Mem t ∧ Y.Mem t) ∧
        (Z.a = X.a ∨ Z.a = Y.a) ∧ (Z.b = X.b ∨ Z.b = Y.b)) ∧
    (X.a.IntsLe (2 ^ 52) → X.b.IntsLe (2 ^ 52) → Y.a.IntsLe (2 ^ 52) → Y.b.IntsLe (2 ^ 52) →
      (FIv.intersect X Y s).1 ≠ .error .overflowError) := by
  have na := lower_ne_nan hX.1
  have nb := upper_ne_nan hX.2
  have na' := lower_ne_nan hY.1
  have nb' := upper_ne_nan hY.2
  have hlo := (interLo_lower na na' x).2 ⟨hX.1, hY.1⟩
  have hhi := (interHi_upper nb nb' x).2 ⟨hX.2, hY.2⟩
  have vlo : (interLo X Y).Valid := by unfold interLo; split_ifs; exacts [hYa, hXa]
  have vhi : (interHi X Y).Valid := by unfold interHi; split_ifs; exacts [hXb, hYb]
  have hle : ¬ (interHi X Y).lt (interLo X Y) = true := by
    intro h
    unfold Num.lt at h
    cases h1 : (interLo X Y).val <;> cases h2 : (interHi X Y).val <;> rw [h1, h2] at h <;> rw [h1] at hlo <;> rw [h2] at hhi <;>
      simp only [Dbl.lt, Dbl.Lower, Dbl.Upper, decide_eq_true_eq, Bool.false_eq_true] at h hlo hhi
    rename_i p q
    have : (q : ℝ) < p := by exact_mod_cast h
    linarith
  refine ⟨?_, fun i1 i2 i3 i4 h => ?_⟩
  · rw [run_intersect]
    cases hd : Num.sub s (interLo X Y) (interHi X Y) with
    | error e => left; rw [sub_error hd]
    | ok d =>
      right
      refine ⟨_, rfl, ?_⟩
      rw [if_pos (diff_passes vlo vhi hlo hhi hd), if_neg hle]
      refine ⟨rfl, fun t => ?_, ?_, ?_⟩
      · unfold FIv.Mem
        simp only [interLo_lower na na' t, interHi_upper nb nb' t]
        tauto
      · unfold interLo; split_ifs <;> simp
      · unfold interHi; split_ifs <;> simp
  · rw [run_intersect] at h
    have ilo : (interLo X Y).IntsLe (2 ^ 52) := by unfold interLo; split_ifs; exacts [i3, i1]
    have ihi : (interHi X Y).IntsLe (2 ^ 52) := by unfold interHi; split_ifs; exacts [i2, i4]
    obtain ⟨v, h1, -⟩ := num_sub s ilo ihi
    rw [h1] at h
    cases h

/-- A rounded number that passes the test is less than twice the constant. -/
theorem lt_of_round {m : Mode} {t : ℚ} (h : Dbl.le (round m t) (.fin interTol) = true) : t < 2 * interTol := by
  by_contra hc
  push Not at hc
  have hF : IsF (2 * interTol : ℚ) := ⟨2535301200456459, -100, by norm_num, by norm_num, by norm_num [interTol]⟩
  have h1 := le_floorTo hF hc
  have h2 : (floorTo t : ℚ) ≤ ceilTo t := (floorTo_le t).trans (le_ceilTo t)
  have h3 : (floorTo t : ℚ) ≤ nearTo t := by rcases nearTo_choice t with e | e <;> rw [e]; exact h2
  have hM : (2 : ℚ) ≤ maxFin := by
    refine le_trans ?_ two53_le_maxFin
    norm_num
  have ht := interTol_pos
  have ht' : (interTol : ℚ) < 1 := by norm_num [interTol]
  cases m <;> simp only [round] at h <;> split_ifs at h <;>
    first
    | (simp only [Dbl.le, decide_eq_true_eq] at h; linarith)
    | (simp only [Dbl.le, Bool.false_eq_true] at h)
    | linarith

/-- C23, the converse: with integers of at most 52 bits and no common real number, `intersection` returns the interval
with two NaN ends, or else one shorter than `2e-15`, made of a lower and an upper end that are closer than that. -/
theorem C23_float_empty (X Y : FIv) (i1 : X.a.IntsLe (2 ^ 52)) (i2 : X.b.IntsLe (2 ^ 52)) (i3 : Y.a.IntsLe (2 ^ 52))
    (i4 : Y.b.IntsLe (2 ^ 52)) (s : Mode) (hE : ∀ x, ¬ (X.Mem x ∧ Y.Mem x)) (hX : ¬ X.HasNaN) (hY : ¬ Y.HasNaN) :
    ∃ Z, FIv.intersect X Y s = (.ok Z, s) ∧ Z.cls = .classical ∧
      (Z.AllNaN ∨ ∃ p q, Z.a.val = .fin p ∧ Z.b.val = .fin q ∧ p < q ∧ q - p < 2 * interTol ∧
        (Z.a = X.b ∨ Z.a = Y.b) ∧ (Z.b = X.a ∨ Z.b = Y.a)) := by
  have na : X.a.val ≠ .nan := fun h => hX (Or.inl (isNaN_val.2 h))
  have nb : X.b.val ≠ .nan := fun h => hX (Or.inr (isNaN_val.2 h))
  have na' : Y.a.val ≠ .nan := fun h => hY (Or.inl (isNaN_val.2 h))
  have nb' : Y.b.val ≠ .nan := fun h => hY (Or.inr (isNaN_val.2 h))
  have ilo : (interLo X Y).IntsLe (2 ^ 52) := by unfold interLo; split_ifs; exacts [i3, i1]
  have ihi : (interHi X Y).IntsLe (2 ^ 52) := by unfold interHi; split_ifs; exacts [i2, i4]
  obtain ⟨v, h1, h2, -⟩ := num_sub s ilo ihi
  have hne : ∀ x, ¬ ((interLo X Y).val.Lower x ∧ (interHi X Y).val.Upper x) := by
    rintro x ⟨e1, e2⟩
    obtain ⟨f1, f2⟩ := (interLo_lower na na' x).1 e1
    obtain ⟨f3, f4⟩ := (interHi_upper nb nb' x).1 e2
    exact hE x ⟨⟨f1, f3⟩, f2, f4⟩
  rw [run_intersect, h1]
  refine ⟨_, rfl, ?_⟩
  by_cases hv : v.le (.dbl (.fin interTol)) = true
  · rw [if_pos hv]
    have hv' : Dbl.le (Dbl.sub s (interLo X Y).val (interHi X Y).val) (.fin interTol) = true := by
      rw [← h2]; exact hv
    obtain ⟨p, q, hp, hq⟩ : ∃ p q, (interLo X Y).val = .fin p ∧ (interHi X Y).val = .fin q := by
      cases e1 : (interLo X Y).val with
      | nan => exfalso; unfold interLo at e1; split_ifs at e1; exacts [na' e1, na e1]
      | pinf =>
        rw [e1] at hv'
        cases e2 : (interHi X Y).val <;> rw [e2] at hv' <;> simp [Dbl.sub, Dbl.neg, Dbl.add, Dbl.le] at hv'
      | ninf =>
        cases e2 : (interHi X Y).val with
        | fin q => exact (hne q ⟨by rw [e1]; trivial, by rw [e2]; exact le_refl _⟩).elim
        | pinf => exact (hne 0 ⟨by rw [e1]; trivial, by rw [e2]; trivial⟩).elim
        | ninf => rw [e1, e2] at hv'; simp [Dbl.sub, Dbl.neg, Dbl.add, Dbl.le] at hv'
        | nan => exfalso; unfold interHi at e2; split_ifs at e2; exacts [nb e2, nb' e2]
      | fin p =>
        cases e2 : (interHi X Y).val with
        | fin q => exact ⟨p, q, rfl, rfl⟩
        | pinf => exact (hne p ⟨by rw [e1]; exact le_refl _, by rw [e2]; trivial⟩).elim
        | ninf => rw [e1, e2] at hv'; simp [Dbl.sub, Dbl.neg, Dbl.add, Dbl.le] at hv'
        | nan => exfalso; unfold interHi at e2; split_ifs at e2; exacts [nb e2, nb' e2]
    have hlt : q < p := by
      by_contra hc
      push Not at hc
      exact hne p ⟨by rw [hp]; exact le_refl _, by rw [hq]; exact (by exact_mod_cast hc : (p : ℝ) ≤ q)⟩
    have hsw : (interHi X Y).lt (interLo X Y) = true := by
      unfold Num.lt; rw [hp, hq]; simpa [Dbl.lt] using hlt
    rw [hp, hq] at hv'
    have := lt_of_round (t := p + -q) hv'
    rw [if_pos hsw]
    refine ⟨rfl, Or.inr ⟨q, p, hq, hp, hlt, by linarith, ?_, ?_⟩⟩
    · show interHi X Y = _ ∨ interHi X Y = _
      unfold interHi; split_ifs <;> simp
    · show interLo X Y = _ ∨ interLo X Y = _
      unfold interLo; split_ifs <;> simp
  · rw [if_neg hv]
    exact ⟨rfl, Or.inl ⟨rfl, rfl⟩⟩

/-- On moderate doubles and small integers `intersect` in the default rounding mode is the model over the field. -/
theorem C90_refine_intersect {X Y : FIv} {X' Y' : Iv ℚ} (hX : X.Fits X') (hY : Y.Fits Y') :
    ∃ Z, FIv.intersect X Y .nearest = (.ok Z, .nearest) ∧
      (match intersect Rnd.b64 X' Y' with
        | none => Z.AllNaN
        | some W => Z.Fits W) := by
  have hlo : (interLo X Y).Fits (if X'.a < Y'.a then Y'.a else X'.a) := by
    have : X.a.lt Y.a = decide (X'.a < Y'.a) := by unfold Num.lt; rw [hX.2.1.1, hY.2.1.1]; rfl
    unfold interLo
    rw [this]
    by_cases h : X'.a < Y'.a
    · simpa [h] using hY.2.1
    · simpa [h] using hX.2.1
  have hhi : (interHi X Y).Fits (if X'.b < Y'.b then X'.b else Y'.b) := by
    have : X.b.lt Y.b = decide (X'.b < Y'.b) := by unfold Num.lt; rw [hX.2.2.1, hY.2.2.1]; rfl
    unfold interHi
    rw [this]
    by_cases h : X'.b < Y'.b
    · simpa [h] using hX.2.2
    · simpa [h] using hY.2.2
  obtain ⟨v, h1, h2, -⟩ := fits_sub rm_nearest hlo hhi
  rw [run_intersect, h1]
  refine ⟨_, rfl, ?_⟩
  unfold intersect
  generalize (if X'.a < Y'.a then Y'.a else X'.a) = p at *
  generalize (if X'.b < Y'.b then X'.b else Y'.b) = q at *
  have e1 : v.le (.dbl (.fin interTol)) = decide ((Rnd.b64 : Rnd ℚ).nr (p - q) ≤ interTol) := by
    unfold Num.le; rw [h2]; rfl
  have e2 : (interHi X Y).lt (interLo X Y) = decide (q < p) := by
    unfold Num.lt; rw [hhi.1, hlo.1]; rfl
  rw [e1, e2]
  by_cases c1 : (Rnd.b64 : Rnd ℚ).nr (p - q) ≤ interTol
  · by_cases c2 : q < p
    · simp only [c1, c2, decide_true, if_true]
      exact ⟨rfl, hhi, hlo⟩
    · simp only [c1, c2, decide_true, decide_false, if_true, Bool.false_eq_true, if_false]
      exact ⟨rfl, hlo, hhi⟩
  · simp only [c1, decide_false, Bool.false_eq_true, if_false]
    exact ⟨rfl, rfl⟩

/-- C120 for `intersection`: NaN as the lower end of the first operand or the upper end of the second gives NaN at both
ends; in particular this holds if one operand is `Interval(nan, nan)`. -/
theorem C120_intersection_partial (X Y : FIv) (s : Mode) (Z : FIv) (h : X.a.IsNaN ∨ Y.b.IsNaN)
    (hZ : (FIv.intersect X Y s).1 = .ok Z) : Z.AllNaN := by
  rw [run_intersect] at hZ
  cases hd : Num.sub s (interLo X Y) (interHi X Y) with
  | error e => rw [hd] at hZ; cases hZ
  | ok d =>
    rw [hd] at hZ
    have hn : d.IsNaN := by
      refine sub_nan hd (h.imp (fun h => ?_) (fun h => ?_))
      · have : X.a.lt Y.a = false := by unfold Num.lt; rw [isNaN_val.1 h]; exact lt_nan_left _
        unfold interLo; rw [this]; exact h
      · have : X.b.lt Y.b = false := by unfold Num.lt; rw [isNaN_val.1 h]; exact lt_nan_right _
        unfold interHi; rw [this]; exact h
    have hf : ¬ d.le (.dbl (.fin interTol)) = true := by rw [hn]; simp [Num.le, Num.val, Dbl.le]
    dsimp only at hZ
    rw [if_neg hf] at hZ
    cases hZ
    exact ⟨rfl, rfl⟩

/-- C120, C23 are false in general: NaN as the upper end of the first operand or the lower end of the second is lost, and
the result depends on the order of the operands. -/
theorem C120_intersection_false : ¬ C120_statement FIv.intersect ∧
    (∃ X Y : FIv, Y.HasNaN ∧ (FIv.intersect X Y .nearest).1 = .ok X ∧ ∃ Z, (FIv.intersect Y X .nearest).1 = .ok Z ∧ Z.AllNaN) ∧
    (∃ X Y : FIv, X.b.IsNaN ∧ (FIv.intersect X Y .nearest).1 = .ok Y) := by
  have w1 : (FIv.intersect ⟨.classical, .dbl (.fin 1), .dbl (.fin 3)⟩ ⟨.classical, .dbl .nan, .dbl (.fin 5)⟩ .nearest).1
      = .ok ⟨.classical, .dbl (.fin 1), .dbl (.fin 3)⟩ := by decide +kernel
  refine ⟨fun h => ?_, ⟨⟨.classical, .dbl (.fin 1), .dbl (.fin 3)⟩, ⟨.classical, .dbl .nan, .dbl (.fin 5)⟩, Or.inl rfl, w1, _, (by decide +kernel :
      (FIv.intersect ⟨.classical, .dbl .nan, .dbl (.fin 5)⟩ ⟨.classical, .dbl (.fin 1), .dbl (.fin 3)⟩ .nearest).1
        = .ok ⟨.classical, .dbl .nan, .dbl .nan⟩), rfl, rfl⟩,
    ⟨⟨.classical, .dbl (.fin 1), .dbl .nan⟩, ⟨.classical, .dbl (.fin 2), .dbl (.fin 3)⟩, rfl, by decide +kernel⟩⟩
  have := h ⟨.classical, .dbl (.fin 1), .dbl (.fin 3)⟩ ⟨.classical, .dbl .nan, .dbl (.fin 5)⟩ _ _ (Or.inr (Or.inl rfl)) w1
  simp [FIv.HasNaN, Num.IsNaN] at this

/-- The hypotheses of `C23_float_common` and what it says: half lines and integers. -/
example : (FIv.intersect ⟨.classical, .dbl .ninf, .int 3⟩ ⟨.classical, .dbl (.fin (5 / 2)), .dbl .pinf⟩ .nearest).1 =
      .ok ⟨.classical, .dbl (.fin (5 / 2)), .int 3⟩ ∧
    FIv.Mem ⟨.classical, .dbl .ninf, .int 3⟩ 3 ∧ FIv.Mem ⟨.classical, .dbl (.fin (5 / 2)), .dbl .pinf⟩ 3 := by
  refine ⟨by decide +kernel, ⟨trivial, ?_⟩, ?_, trivial⟩
  · show (3 : ℝ) ≤ ((3 : ℤ) : ℚ); norm_num
  · show (((5 / 2 : ℚ)) : ℝ) ≤ 3; norm_num

/-- The `OverflowError` of `C23_float_common` does occur. -/
example : (FIv.intersect ⟨.classical, .dbl (.fin 1), .int (10 ^ 400)⟩ ⟨.classical, .dbl (.fin 0), .int (10 ^ 401)⟩ .nearest).1 =
    .error .overflowError := by decide +kernel

/-- Both cases of `C23_float_empty`; the ends `1e-15` and `0` count as touching. -/
example : (FIv.intersect ⟨.classical, .int 1, .int 2⟩ ⟨.classical, .int 3, .int 7⟩ .nearest).1 =
      .ok ⟨.classical, .dbl .nan, .dbl .nan⟩ ∧
    (FIv.intersect ⟨.classical, .int (-1), .int 0⟩ ⟨.classical, .dbl (.fin interTol), .int 7⟩ .nearest).1 =
      .ok ⟨.classical, .int 0, .dbl (.fin interTol)⟩ := by
  constructor <;> decide +kernel

/-- With integers above 53 bits disjoint intervals that are one unit apart are joined. -/
example : (FIv.intersect ⟨.classical, .int (2 ^ 53 + 1), .int (2 ^ 54)⟩ ⟨.classical, .int 0, .dbl (.fin (2 ^ 53))⟩ .nearest).1 =
    .ok ⟨.classical, .dbl (.fin (2 ^ 53)), .int (2 ^ 53 + 1)⟩ := by decide +kernel

/-- The operands of `intersection` may not be numbers. -/
theorem C23_float_number (c : Num) (X : FIv) (s : Mode) :
    (fIntersection (.num c) (.iv X) s).1 = .error .attributeError ∧ (fIntersection (.iv X) (.num c) s).1 = .error .attributeError ∧
    fIntersection (.iv X) (.iv X) s = FIv.intersect X X s := ⟨rfl, rfl, rfl⟩

end IntvalPy
