import Verif.PropsFloat
import Verif.ProofsKernel
import Mathlib.Data.Fin.VecNotation

/-!
# L1 properties: enclosure in IEEE binary64 with overflow, and where it fails

The points are real numbers; the endpoints are Python `int`s or `float`s, possibly infinite.
-/

set_option autoImplicit false
set_option linter.unusedSectionVars false

namespace IntvalPy
open FIv

/-! ## Specification -/

/-- The double `d` is a valid lower bound of the real number `x`. -/
def Dbl.Lower (d : Dbl) (x : ℝ) : Prop :=
  match d with
  | .fin q => (q : ℝ) ≤ x
  | .ninf => True
  | _ => False

/-- The double `d` is a valid upper bound of the real number `x`. -/
def Dbl.Upper (d : Dbl) (x : ℝ) : Prop :=
  match d with
  | .fin q => x ≤ (q : ℝ)
  | .pinf => True
  | _ => False

/-- The real number `x` belongs to the interval. -/
def FIv.Mem (X : FIv) (x : ℝ) : Prop := X.a.val.Lower x ∧ X.b.val.Upper x

/-- Integers are below the bound in magnitude; floats are unrestricted. -/
def Num.IntsLe (n : Num) (B : ℤ) : Prop :=
  match n with
  | .int z => |z| ≤ B
  | .dbl _ => True

/-- Both endpoints finite numbers. -/
def FIv.Finite (X : FIv) : Prop := (∃ p, X.a.val = .fin p) ∧ (∃ q, X.b.val = .fin q)

/-! ## Auxiliary facts -/

theorem isF_le_maxFin_round (m : Mode) {t : ℚ} (h : IsF t) (h1 : t ≤ maxFin) (h2 : -maxFin ≤ t) :
    round m t = .fin t := by
  cases m with
  | down => simp only [round, floorTo_of_isF h]; rw [if_neg (not_lt.mpr h1), if_neg (not_lt.mpr h2)]
  | up => simp only [round, ceilTo_of_isF h]; rw [if_neg (not_lt.mpr h1), if_neg (not_lt.mpr h2)]
  | nearest => simp only [round, nearTo_of_isF h]; rw [if_neg (not_lt.mpr h1), if_neg (not_lt.mpr h2)]
  | zero =>
    simp only [round, floorTo_of_isF h, ceilTo_of_isF h]
    rw [if_neg (not_lt.mpr h1), if_neg (not_lt.mpr h2), ite_self]

theorem two53_le_maxFin : ((2 : ℚ) ^ 53) ≤ maxFin := by
  have h : (2 : ℚ) ≤ 2 ^ 971 := le_self_pow₀ (by norm_num) (by norm_num)
  have h' : (0 : ℚ) ≤ 2 ^ 53 - 1 := by norm_num
  calc (2 : ℚ) ^ 53 ≤ (2 ^ 53 - 1) * 2 := by norm_num
    _ ≤ (2 ^ 53 - 1) * 2 ^ 971 := mul_le_mul_of_nonneg_left h h'

theorem round_int (m : Mode) {z : ℤ} (h : |z| ≤ 2 ^ 53) : round m (z : ℚ) = .fin z := by
  have h1 : |(z : ℚ)| ≤ 2 ^ 53 := by exact_mod_cast h
  rw [abs_le] at h1
  have := two53_le_maxFin
  exact isF_le_maxFin_round m (isF_int h) (h1.2.trans this) (by linarith [h1.1])

theorem toDbl_of_small {n : Num} (h : n.IntsLe (2 ^ 53)) : n.toDbl = .ok n.val := by
  cases n with
  | dbl d => rfl
  | int z => simp only [Num.toDbl, round_int .nearest h, Num.val]

theorem Num.IntsLe.mono {n : Num} {B C : ℤ} (h : n.IntsLe B) (hBC : B ≤ C) : n.IntsLe C := by
  cases n with
  | dbl d => trivial
  | int z => exact le_trans h hBC

theorem viaDbl_of_small {x y : Num} (f : Dbl → Dbl → Except Err Dbl) (hx : x.IntsLe (2 ^ 53))
    (hy : y.IntsLe (2 ^ 53)) : Num.viaDbl f x y = (f x.val y.val).map .dbl := by
  unfold Num.viaDbl
  rw [toDbl_of_small hx, toDbl_of_small hy]
  show (do let r ← f x.val y.val; pure (Num.dbl r)) = _
  cases f x.val y.val <;> rfl

theorem num_add {x y : Num} (m : Mode) (hx : x.IntsLe (2 ^ 52)) (hy : y.IntsLe (2 ^ 52)) :
    ∃ v : Num, Num.add m x y = .ok v ∧ v.val = Dbl.add m x.val y.val ∧ v.IntsLe (2 ^ 53) := by
  have hx' := hx.mono (C := 2 ^ 53) (by norm_num)
  have hy' := hy.mono (C := 2 ^ 53) (by norm_num)
  have gen : (∀ z w, ¬ (x = .int z ∧ y = .int w)) →
      Num.add m x y = Num.viaDbl (fun p q => .ok (Dbl.add m p q)) x y := by
    intro h
    cases x <;> cases y <;> first | rfl | exact absurd ⟨rfl, rfl⟩ (h _ _)
  by_cases h : ∃ z w, x = .int z ∧ y = .int w
  · obtain ⟨z, w, rfl, rfl⟩ := h
    have hzw : |z + w| ≤ 2 ^ 53 := (abs_add_le z w).trans (by
      have h1 : |z| ≤ 2 ^ 52 := hx
      have h2 : |w| ≤ 2 ^ 52 := hy
      linarith)
    refine ⟨.int (z + w), rfl, ?_, hzw⟩
    show Dbl.fin ((z + w : ℤ) : ℚ) = round m ((z : ℚ) + w)
    rw [← round_int m hzw]; push_cast; rfl
  · push Not at h
    rw [gen (fun z w hzw => h z w hzw.1 hzw.2), viaDbl_of_small _ hx' hy']
    exact ⟨_, rfl, rfl, trivial⟩

theorem num_sub {x y : Num} (m : Mode) (hx : x.IntsLe (2 ^ 52)) (hy : y.IntsLe (2 ^ 52)) :
    ∃ v : Num, Num.sub m x y = .ok v ∧ v.val = Dbl.sub m x.val y.val ∧ v.IntsLe (2 ^ 53) := by
  have hx' := hx.mono (C := 2 ^ 53) (by norm_num)
  have hy' := hy.mono (C := 2 ^ 53) (by norm_num)
  have gen : (∀ z w, ¬ (x = .int z ∧ y = .int w)) →
      Num.sub m x y = Num.viaDbl (fun p q => .ok (Dbl.sub m p q)) x y := by
    intro h
    cases x <;> cases y <;> first | rfl | exact absurd ⟨rfl, rfl⟩ (h _ _)
  by_cases h : ∃ z w, x = .int z ∧ y = .int w
  · obtain ⟨z, w, rfl, rfl⟩ := h
    have hzw : |z - w| ≤ 2 ^ 53 := (abs_sub z w).trans (by
      have h1 : |z| ≤ 2 ^ 52 := hx
      have h2 : |w| ≤ 2 ^ 52 := hy
      linarith)
    refine ⟨.int (z - w), rfl, ?_, hzw⟩
    show Dbl.fin ((z - w : ℤ) : ℚ) = round m ((z : ℚ) + -w)
    rw [← round_int m hzw]; push_cast; rw [sub_eq_add_neg]
  · push Not at h
    rw [gen (fun z w hzw => h z w hzw.1 hzw.2), viaDbl_of_small _ hx' hy']
    exact ⟨_, rfl, rfl, trivial⟩

theorem num_mul {x y : Num} (m : Mode) (hx : x.IntsLe (2 ^ 26)) (hy : y.IntsLe (2 ^ 26)) :
    ∃ v : Num, Num.mul m x y = .ok v ∧ v.val = Dbl.mul m x.val y.val ∧ v.IntsLe (2 ^ 53) := by
  have hx' := hx.mono (C := 2 ^ 53) (by norm_num)
  have hy' := hy.mono (C := 2 ^ 53) (by norm_num)
  have gen : (∀ z w, ¬ (x = .int z ∧ y = .int w)) →
      Num.mul m x y = Num.viaDbl (fun p q => .ok (Dbl.mul m p q)) x y := by
    intro h
    cases x <;> cases y <;> first | rfl | exact absurd ⟨rfl, rfl⟩ (h _ _)
  by_cases h : ∃ z w, x = .int z ∧ y = .int w
  · obtain ⟨z, w, rfl, rfl⟩ := h
    have hzw : |z * w| ≤ 2 ^ 53 := by
      have h1 : |z| ≤ 2 ^ 26 := hx
      have h2 : |w| ≤ 2 ^ 26 := hy
      rw [abs_mul]
      calc |z| * |w| ≤ 2 ^ 26 * 2 ^ 26 := mul_le_mul h1 h2 (abs_nonneg _) (by norm_num)
        _ ≤ 2 ^ 53 := by norm_num
    refine ⟨.int (z * w), rfl, ?_, hzw⟩
    show Dbl.fin ((z * w : ℤ) : ℚ) = round m ((z : ℚ) * w)
    rw [← round_int m hzw]; push_cast; rfl
  · push Not at h
    rw [gen (fun z w hzw => h z w hzw.1 hzw.2), viaDbl_of_small _ hx' hy']
    exact ⟨_, rfl, rfl, trivial⟩

theorem num_div {x y : Num} (m : Mode) (hx : x.IntsLe (2 ^ 53 - 1)) (hy : y.IntsLe (2 ^ 53 - 1))
    {p q : ℚ} (hp : x.val = .fin p) (hq : y.val = .fin q) (h0 : q ≠ 0) :
    ∃ v : Num, Num.div m x y = .ok v ∧ v.val = round m (p / q) ∧ v.IntsLe (2 ^ 53) := by
  have hx' := hx.mono (C := 2 ^ 53) (by norm_num)
  have hy' := hy.mono (C := 2 ^ 53) (by norm_num)
  have gen : (∀ z w, ¬ (x = .int z ∧ y = .int w)) →
      Num.div m x y = Num.viaDbl (Dbl.div m) x y := by
    intro h
    cases x <;> cases y <;> first | rfl | exact absurd ⟨rfl, rfl⟩ (h _ _)
  by_cases h : ∃ z w, x = .int z ∧ y = .int w
  · obtain ⟨z, w, rfl, rfl⟩ := h
    have hz : (z : ℚ) = p := Dbl.fin.inj hp
    have hw : (w : ℚ) = q := Dbl.fin.inj hq
    subst hz; subst hw
    have h1 : |z| ≤ 2 ^ 53 - 1 := hx
    have h2 : |w| ≤ 2 ^ 53 - 1 := hy
    refine ⟨.dbl (round m ((z : ℚ) / w)), ?_, rfl, trivial⟩
    simp only [Num.div]
    rw [if_neg (by exact_mod_cast h0), if_pos ⟨by omega, by omega⟩]
  · push Not at h
    rw [gen (fun z w hzw => h z w hzw.1 hzw.2), viaDbl_of_small _ hx' hy', hp, hq]
    simp only [Dbl.div, if_neg h0]
    exact ⟨_, rfl, rfl, trivial⟩

theorem run_store {x : M Num} {m : Mode} {v : Num} (h : (x m).1 = .ok v) (hv : v.IntsLe (2 ^ 53)) :
    ((FIv.store x) m).1 = .ok (.dbl v.val) := by
  unfold FIv.store
  rw [run_bind]
  rcases e : x m with ⟨r, s⟩
  rw [e] at h
  simp only at h
  subst h
  show v.toDbl.map Num.dbl = _
  rw [toDbl_of_small hv]; rfl

theorem round_down_lower {t : ℚ} {x : ℝ} (h : (t : ℝ) ≤ x) : (round .down t).Lower x := by
  have h1 : floorTo t ≤ t := floorTo_le t
  simp only [round]
  split_ifs with h2 h3
  · exact le_trans (by exact_mod_cast h2.le.trans h1) h
  · trivial
  · exact le_trans (by exact_mod_cast h1) h

theorem round_up_upper {t : ℚ} {x : ℝ} (h : x ≤ (t : ℝ)) : (round .up t).Upper x := by
  have h1 : t ≤ ceilTo t := le_ceilTo t
  simp only [round]
  split_ifs with h2 h3
  · trivial
  · exact h.trans (by exact_mod_cast h1.trans h3.le)
  · exact h.trans (by exact_mod_cast h1)

theorem Dbl.add_lower {d e : Dbl} {x y : ℝ} (hd : d.Lower x) (he : e.Lower y) :
    (Dbl.add .down d e).Lower (x + y) := by
  cases d <;> cases e <;> simp only [Dbl.Lower] at hd he <;>
    first
      | trivial
      | exact round_down_lower (by push_cast; exact add_le_add hd he)
      | exact hd.elim
      | exact he.elim

theorem Dbl.add_upper {d e : Dbl} {x y : ℝ} (hd : d.Upper x) (he : e.Upper y) :
    (Dbl.add .up d e).Upper (x + y) := by
  cases d <;> cases e <;> simp only [Dbl.Upper] at hd he <;>
    first
      | trivial
      | exact round_up_upper (by push_cast; exact add_le_add hd he)
      | exact hd.elim
      | exact he.elim

theorem Dbl.neg_lower {d : Dbl} {x : ℝ} (h : d.Upper x) : d.neg.Lower (-x) := by
  cases d <;> simp only [Dbl.Upper, Dbl.neg, Dbl.Lower] at h ⊢
  push_cast; linarith

theorem Dbl.neg_upper {d : Dbl} {x : ℝ} (h : d.Lower x) : d.neg.Upper (-x) := by
  cases d <;> simp only [Dbl.Lower, Dbl.neg, Dbl.Upper] at h ⊢
  push_cast; linarith

theorem Dbl.sub_lower {d e : Dbl} {x y : ℝ} (hd : d.Lower x) (he : e.Upper y) :
    (Dbl.sub .down d e).Lower (x - y) := by
  rw [sub_eq_add_neg]; exact Dbl.add_lower hd (Dbl.neg_lower he)

theorem Dbl.sub_upper {d e : Dbl} {x y : ℝ} (hd : d.Upper x) (he : e.Lower y) :
    (Dbl.sub .up d e).Upper (x - y) := by
  rw [sub_eq_add_neg]; exact Dbl.add_upper hd (Dbl.neg_upper he)

/-- Two successful stores give a successful operation. -/
theorem run_two_ok {p q : M Num} {f : Num → Num → FIv} {s : Mode} {v w : Num}
    (hp : (p .down).1 = .ok v) (hq : (q .up).1 = .ok w) :
    (do
      let inf ← M.withRounding .down p
      let sup ← M.withRounding .up q
      pure (f inf sup) : M FIv) s = (.ok (f v w), s) := by
  rw [run_two, hp, hq]; rfl

/-! ## C01, C05: sums and differences, infinite endpoints included -/

/-- C01 in binary64: for any two intervals, bounded or unbounded, with float endpoints or integer
endpoints up to `2^52`, in any ambient mode, `X + Y` and `X - Y` succeed and contain every sum and
difference of members, overflow to infinity included. -/
theorem C01_float_encloses (X Y : FIv) (s : Mode)
    (hX : X.a.IntsLe (2 ^ 52) ∧ X.b.IntsLe (2 ^ 52)) (hY : Y.a.IntsLe (2 ^ 52) ∧ Y.b.IntsLe (2 ^ 52)) :
    (∃ Z, FIv.add X Y s = (.ok Z, s) ∧ ∀ x y : ℝ, X.Mem x → Y.Mem y → Z.Mem (x + y)) ∧
    (∃ Z, FIv.sub X Y s = (.ok Z, s) ∧ ∀ x y : ℝ, X.Mem x → Y.Mem y → Z.Mem (x - y)) := by
  constructor
  · obtain ⟨v, hv, ev, sv⟩ := num_add .down hX.1 hY.1
    obtain ⟨w, hw, ew, sw⟩ := num_add .up hX.2 hY.2
    refine ⟨_, run_two_ok (run_store (x := nadd X.a Y.a) hv sv) (run_store (x := nadd X.b Y.b) hw sw), ?_⟩
    intro x y hx hy
    refine ⟨?_, ?_⟩
    · show v.val.Lower _
      rw [ev]; exact Dbl.add_lower hx.1 hy.1
    · show w.val.Upper _
      rw [ew]; exact Dbl.add_upper hx.2 hy.2
  · obtain ⟨v, hv, ev, sv⟩ := num_sub .down hX.1 hY.2
    obtain ⟨w, hw, ew, sw⟩ := num_sub .up hX.2 hY.1
    refine ⟨_, run_two_ok (run_store (x := nsub X.a Y.b) hv sv) (run_store (x := nsub X.b Y.a) hw sw), ?_⟩
    intro x y hx hy
    refine ⟨?_, ?_⟩
    · show v.val.Lower _
      rw [ev]; exact Dbl.sub_lower hx.1 hy.2
    · show w.val.Upper _
      rw [ew]; exact Dbl.sub_upper hx.2 hy.1

/-- C05 in binary64: number plus interval and number minus interval, for a finite number. -/
theorem C05_float_sums_enclose (X : FIv) (c : Num) (q : ℚ) (s : Mode)
    (hX : X.a.IntsLe (2 ^ 52) ∧ X.b.IntsLe (2 ^ 52)) (hc : c.IntsLe (2 ^ 52)) (hq : c.val = .fin q) :
    (∃ Z, FIv.radd c X s = (.ok Z, s) ∧ ∀ x : ℝ, X.Mem x → Z.Mem (q + x)) ∧
    (∃ Z, FIv.rsub c X s = (.ok Z, s) ∧ ∀ x : ℝ, X.Mem x → Z.Mem (q - x)) := by
  have hl : c.val.Lower q := by rw [hq]; exact le_refl _
  have hu : c.val.Upper q := by rw [hq]; exact le_refl _
  constructor
  · obtain ⟨v, hv, ev, sv⟩ := num_add .down hX.1 hc
    obtain ⟨w, hw, ew, sw⟩ := num_add .up hX.2 hc
    refine ⟨_, run_two_ok (run_store (x := nadd X.a c) hv sv) (run_store (x := nadd X.b c) hw sw), ?_⟩
    intro x hx
    rw [add_comm]
    refine ⟨?_, ?_⟩
    · show v.val.Lower _
      rw [ev]; exact Dbl.add_lower hx.1 hl
    · show w.val.Upper _
      rw [ew]; exact Dbl.add_upper hx.2 hu
  · obtain ⟨v, hv, ev, sv⟩ := num_sub .down hc hX.2
    obtain ⟨w, hw, ew, sw⟩ := num_sub .up hc hX.1
    refine ⟨_, run_two_ok (run_store (x := nsub c X.b) hv sv) (run_store (x := nsub c X.a) hw sw), ?_⟩
    intro x hx
    refine ⟨?_, ?_⟩
    · show v.val.Lower _
      rw [ev]; exact Dbl.sub_lower hl hx.2
    · show w.val.Upper _
      rw [ew]; exact Dbl.sub_upper hu hx.1

/-- An unbounded float interval and a bounded integer one. -/
example : (FIv.mk .classical (.dbl .ninf) (.dbl (.fin 1))).Mem (-5) ∧
    (FIv.mk .classical (.int 2) (.int 3)).Mem 2 ∧ (Num.int 3).IntsLe (2 ^ 52) := by
  refine ⟨⟨trivial, ?_⟩, ⟨?_, ?_⟩, ?_⟩ <;> norm_num [Num.val, Dbl.Upper, Dbl.Lower, Num.IntsLe]

/-! ## C02, C03: products and quotients of bounded intervals -/

/-- Not NaN. -/
def Dbl.Ok (d : Dbl) : Prop := d ≠ .nan

theorem round_ok (m : Mode) (t : ℚ) : (round m t).Ok := by
  unfold Dbl.Ok
  cases m <;> simp only [round] <;> split_ifs <;> simp

theorem Dbl.lower_of_le {d e : Dbl} {x : ℝ} (h : Dbl.le d e = true) (he : e.Lower x) : d.Lower x := by
  cases d <;> cases e <;> simp only [Dbl.le, Dbl.Lower, decide_eq_true_eq, Bool.false_eq_true] at h he ⊢
  exact le_trans (by exact_mod_cast h) he

theorem Dbl.upper_of_le {d e : Dbl} {x : ℝ} (h : Dbl.le e d = true) (he : e.Upper x) : d.Upper x := by
  cases d <;> cases e <;> simp only [Dbl.le, Dbl.Upper, decide_eq_true_eq, Bool.false_eq_true] at h he ⊢
  exact he.trans (by exact_mod_cast h)

theorem Dbl.le_refl' {d : Dbl} (h : d.Ok) : Dbl.le d d = true := by
  cases d <;> simp [Dbl.le, Dbl.Ok] at h ⊢

theorem Dbl.le_trans' {d e f : Dbl} (h : Dbl.le d e = true) (h' : Dbl.le e f = true) : Dbl.le d f = true := by
  cases d <;> cases e <;> cases f <;> simp [Dbl.le] at h h' ⊢
  exact h.trans h'

theorem Dbl.le_of_lt' {d e : Dbl} (h : Dbl.lt d e = true) : Dbl.le d e = true := by
  cases d <;> cases e <;> simp [Dbl.le, Dbl.lt] at h ⊢
  exact h.le

theorem Dbl.le_of_not_lt' {d e : Dbl} (hd : d.Ok) (he : e.Ok) (h : ¬ Dbl.lt d e = true) :
    Dbl.le e d = true := by
  cases d <;> cases e <;> simp [Dbl.le, Dbl.lt, Dbl.Ok] at h hd he ⊢
  exact h

theorem min2_spec {x y : Num} (hx : x.val.Ok) (hy : y.val.Ok) :
    (x.min2 y = x ∨ x.min2 y = y) ∧ Dbl.le (x.min2 y).val x.val = true ∧
      Dbl.le (x.min2 y).val y.val = true := by
  unfold Num.min2 Num.lt
  split_ifs with h
  · exact ⟨Or.inr rfl, Dbl.le_of_lt' h, Dbl.le_refl' hy⟩
  · exact ⟨Or.inl rfl, Dbl.le_refl' hx, Dbl.le_of_not_lt' hy hx h⟩

theorem max2_spec {x y : Num} (hx : x.val.Ok) (hy : y.val.Ok) :
    (x.max2 y = x ∨ x.max2 y = y) ∧ Dbl.le x.val (x.max2 y).val = true ∧
      Dbl.le y.val (x.max2 y).val = true := by
  unfold Num.max2 Num.lt
  split_ifs with h
  · exact ⟨Or.inr rfl, Dbl.le_of_lt' h, Dbl.le_refl' hy⟩
  · exact ⟨Or.inl rfl, Dbl.le_refl' hx, Dbl.le_of_not_lt' hx hy h⟩

/-- `min` and `max` of four non-NaN storable numbers. -/
theorem min4_spec {x y z t : Num} (hx : x.val.Ok) (hy : y.val.Ok) (hz : z.val.Ok) (ht : t.val.Ok) :
    let m := ((x.min2 y).min2 z).min2 t
    (m = x ∨ m = y ∨ m = z ∨ m = t) ∧ Dbl.le m.val x.val = true ∧ Dbl.le m.val y.val = true ∧
      Dbl.le m.val z.val = true ∧ Dbl.le m.val t.val = true := by
  obtain ⟨c1, l1, l1'⟩ := min2_spec hx hy
  have o1 : (x.min2 y).val.Ok := by rcases c1 with h | h <;> rw [h] <;> assumption
  obtain ⟨c2, l2, l2'⟩ := min2_spec o1 hz
  have o2 : ((x.min2 y).min2 z).val.Ok := by rcases c2 with h | h <;> rw [h] <;> assumption
  obtain ⟨c3, l3, l3'⟩ := min2_spec o2 ht
  refine ⟨?_, Dbl.le_trans' l3 (Dbl.le_trans' l2 l1), Dbl.le_trans' l3 (Dbl.le_trans' l2 l1'),
    Dbl.le_trans' l3 l2', l3'⟩
  rcases c3 with h | h
  · rcases c2 with h2 | h2
    · rcases c1 with h1 | h1
      · left; rw [h, h2, h1]
      · right; left; rw [h, h2, h1]
    · right; right; left; rw [h, h2]
  · right; right; right; exact h

theorem max4_spec {x y z t : Num} (hx : x.val.Ok) (hy : y.val.Ok) (hz : z.val.Ok) (ht : t.val.Ok) :
    let m := ((x.max2 y).max2 z).max2 t
    (m = x ∨ m = y ∨ m = z ∨ m = t) ∧ Dbl.le x.val m.val = true ∧ Dbl.le y.val m.val = true ∧
      Dbl.le z.val m.val = true ∧ Dbl.le t.val m.val = true := by
  obtain ⟨c1, l1, l1'⟩ := max2_spec hx hy
  have o1 : (x.max2 y).val.Ok := by rcases c1 with h | h <;> rw [h] <;> assumption
  obtain ⟨c2, l2, l2'⟩ := max2_spec o1 hz
  have o2 : ((x.max2 y).max2 z).val.Ok := by rcases c2 with h | h <;> rw [h] <;> assumption
  obtain ⟨c3, l3, l3'⟩ := max2_spec o2 ht
  refine ⟨?_, Dbl.le_trans' l1 (Dbl.le_trans' l2 l3), Dbl.le_trans' l1' (Dbl.le_trans' l2 l3),
    Dbl.le_trans' l2' l3, l3'⟩
  rcases c3 with h | h
  · rcases c2 with h2 | h2
    · rcases c1 with h1 | h1
      · left; rw [h, h2, h1]
      · right; left; rw [h, h2, h1]
    · right; right; left; rw [h, h2]
  · right; right; right; exact h

theorem run_min4 {p q r t : Mode → Except Err Num} {m : Mode} {a b c d : Num} (h1 : p m = .ok a)
    (h2 : q m = .ok b) (h3 : r m = .ok c) (h4 : t m = .ok d) :
    ((FIv.min4 (M.op p) (M.op q) (M.op r) (M.op t)) m).1 = .ok (((a.min2 b).min2 c).min2 d) := by
  simp only [FIv.min4, run_bind, M.op, h1, h2, h3, h4]; rfl

theorem run_max4 {p q r t : Mode → Except Err Num} {m : Mode} {a b c d : Num} (h1 : p m = .ok a)
    (h2 : q m = .ok b) (h3 : r m = .ok c) (h4 : t m = .ok d) :
    ((FIv.max4 (M.op p) (M.op q) (M.op r) (M.op t)) m).1 = .ok (((a.max2 b).max2 c).max2 d) := by
  simp only [FIv.max4, run_bind, M.op, h1, h2, h3, h4]; rfl

/-- The common core of products and quotients: minimum and maximum of four directed roundings. -/
theorem four_corners {P : Fin 4 → Mode → Except Err Num} {t : Fin 4 → ℚ} (s : Mode)
    (h : ∀ i m, ∃ v : Num, P i m = .ok v ∧ v.val = round m (t i) ∧ v.IntsLe (2 ^ 53)) (cl : Cls) :
    ∃ Z : FIv, (do
      let inf ← M.withRounding .down (FIv.store (FIv.min4 (M.op (P 0)) (M.op (P 1)) (M.op (P 2)) (M.op (P 3))))
      let sup ← M.withRounding .up (FIv.store (FIv.max4 (M.op (P 0)) (M.op (P 1)) (M.op (P 2)) (M.op (P 3))))
      pure (FIv.mk cl inf sup) : M FIv) s = (.ok Z, s) ∧
      ∀ x : ℝ, (∃ i, ((t i : ℚ) : ℝ) ≤ x) → (∃ i, x ≤ ((t i : ℚ) : ℝ)) → Z.Mem x := by
  have side : ∀ m, ∃ v : Fin 4 → Num, ∀ i, P i m = .ok (v i) ∧ (v i).val = round m (t i) ∧
      (v i).IntsLe (2 ^ 53) := fun m => ⟨fun i => (h i m).choose, fun i => (h i m).choose_spec⟩
  obtain ⟨v, hv⟩ := side .down
  obtain ⟨w, hw⟩ := side .up
  have ov : ∀ i, (v i).val.Ok := fun i => by rw [(hv i).2.1]; exact round_ok _ _
  have ow : ∀ i, (w i).val.Ok := fun i => by rw [(hw i).2.1]; exact round_ok _ _
  obtain ⟨c1, l0, l1, l2, l3⟩ := min4_spec (ov 0) (ov 1) (ov 2) (ov 3)
  obtain ⟨c2, u0, u1, u2, u3⟩ := max4_spec (ow 0) (ow 1) (ow 2) (ow 3)
  have s1 : ((((v 0).min2 (v 1)).min2 (v 2)).min2 (v 3)).IntsLe (2 ^ 53) := by
    rcases c1 with e | e | e | e <;> rw [e]
    exacts [(hv 0).2.2, (hv 1).2.2, (hv 2).2.2, (hv 3).2.2]
  have s2 : ((((w 0).max2 (w 1)).max2 (w 2)).max2 (w 3)).IntsLe (2 ^ 53) := by
    rcases c2 with e | e | e | e <;> rw [e]
    exacts [(hw 0).2.2, (hw 1).2.2, (hw 2).2.2, (hw 3).2.2]
  refine ⟨_, run_two_ok
    (run_store (run_min4 (hv 0).1 (hv 1).1 (hv 2).1 (hv 3).1) s1)
    (run_store (run_max4 (hw 0).1 (hw 1).1 (hw 2).1 (hw 3).1) s2), ?_⟩
  rintro x ⟨i, hi⟩ ⟨j, hj⟩
  constructor
  · have hl : (v i).val.Lower x := by rw [(hv i).2.1]; exact round_down_lower hi
    show Dbl.Lower _ x
    refine Dbl.lower_of_le ?_ hl
    fin_cases i
    exacts [l0, l1, l2, l3]
  · have hu : (w j).val.Upper x := by rw [(hw j).2.1]; exact round_up_upper hj
    show Dbl.Upper _ x
    refine Dbl.upper_of_le ?_ hu
    fin_cases j
    exacts [u0, u1, u2, u3]

theorem exists_le_of_min4 {K : Type*} [LinearOrder K] {p q r s x : K}
    (h : min (min (min p q) r) s ≤ x) : p ≤ x ∨ q ≤ x ∨ r ≤ x ∨ s ≤ x := by
  simp only [min_le_iff] at h; tauto

theorem exists_le_of_max4 {K : Type*} [LinearOrder K] {p q r s x : K}
    (h : x ≤ max (max (max p q) r) s) : x ≤ p ∨ x ≤ q ∨ x ≤ r ∨ x ≤ s := by
  simp only [le_max_iff] at h; tauto

/-- C02 in binary64: the product of two bounded classical intervals with float endpoints or integer
endpoints up to `2^26` succeeds and contains every product of members, overflow and underflow included. -/
theorem C02_float_encloses (X Y : FIv) (s : Mode) (cX : X.cls = .classical) (cY : Y.cls = .classical)
    (fX : X.Finite) (fY : Y.Finite)
    (hX : X.a.IntsLe (2 ^ 26) ∧ X.b.IntsLe (2 ^ 26)) (hY : Y.a.IntsLe (2 ^ 26) ∧ Y.b.IntsLe (2 ^ 26)) :
    ∃ Z, FIv.mul X Y s = (.ok Z, s) ∧ ∀ x y : ℝ, X.Mem x → Y.Mem y → Z.Mem (x * y) := by
  obtain ⟨⟨xa, hxa⟩, ⟨xb, hxb⟩⟩ := fX
  obtain ⟨⟨ya, hya⟩, ⟨yb, hyb⟩⟩ := fY
  let P : Fin 4 → Mode → Except Err Num :=
    ![fun m => Num.mul m X.a Y.a, fun m => Num.mul m X.a Y.b, fun m => Num.mul m X.b Y.a,
      fun m => Num.mul m X.b Y.b]
  let t : Fin 4 → ℚ := ![xa * ya, xa * yb, xb * ya, xb * yb]
  have h : ∀ i m, ∃ v : Num, P i m = .ok v ∧ v.val = round m (t i) ∧ v.IntsLe (2 ^ 53) := by
    intro i m
    fin_cases i
    · have := num_mul m hX.1 hY.1; rw [hxa, hya] at this; exact this
    · have := num_mul m hX.1 hY.2; rw [hxa, hyb] at this; exact this
    · have := num_mul m hX.2 hY.1; rw [hxb, hya] at this; exact this
    · have := num_mul m hX.2 hY.2; rw [hxb, hyb] at this; exact this
  obtain ⟨Z, hZ, hm⟩ := four_corners s h .classical
  refine ⟨Z, ?_, ?_⟩
  · unfold FIv.mul; rw [cX, cY]; exact hZ
  · rintro x y ⟨hx1, hx2⟩ ⟨hy1, hy2⟩
    rw [hxa] at hx1; rw [hxb] at hx2; rw [hya] at hy1; rw [hyb] at hy2
    have hx : (xa : ℝ) ≤ x ∧ x ≤ xb := ⟨hx1, hx2⟩
    have hy : (ya : ℝ) ≤ y ∧ y ≤ yb := ⟨hy1, hy2⟩
    have e : ∀ i, ((t i : ℚ) : ℝ) = ![(xa * ya : ℝ), xa * yb, xb * ya, xb * yb] i := by
      intro i; fin_cases i <;> simp [t]
    apply hm
    · rcases exists_le_of_min4 (min4_le_mul hx hy) with h | h | h | h
      exacts [⟨0, by rw [e]; exact h⟩, ⟨1, by rw [e]; exact h⟩, ⟨2, by rw [e]; exact h⟩,
        ⟨3, by rw [e]; exact h⟩]
    · rcases exists_le_of_max4 (mul_le_max4 hx hy) with h | h | h | h
      exacts [⟨0, by rw [e]; exact h⟩, ⟨1, by rw [e]; exact h⟩, ⟨2, by rw [e]; exact h⟩,
        ⟨3, by rw [e]; exact h⟩]

/-- C03 in binary64: a quotient of bounded classical intervals with float endpoints or integer endpoints
below `2^53`: `ValueError` exactly when the divisor contains zero, otherwise an enclosure of all
quotients of members. -/
theorem C03_float_encloses (X Y : FIv) (s : Mode) (cX : X.cls = .classical) (cY : Y.cls = .classical)
    (fX : X.Finite) (fY : Y.Finite)
    (hX : X.a.IntsLe (2 ^ 53 - 1) ∧ X.b.IntsLe (2 ^ 53 - 1))
    (hY : Y.a.IntsLe (2 ^ 53 - 1) ∧ Y.b.IntsLe (2 ^ 53 - 1)) (hne : ∃ y, Y.Mem y) :
    (Y.Mem 0 → FIv.div X Y s = (.error .valueError, s)) ∧
    (¬ Y.Mem 0 → ∃ Z, FIv.div X Y s = (.ok Z, s) ∧ ∀ x y : ℝ, X.Mem x → Y.Mem y → Z.Mem (x / y)) := by
  obtain ⟨⟨xa, hxa⟩, ⟨xb, hxb⟩⟩ := fX
  obtain ⟨⟨ya, hya⟩, ⟨yb, hyb⟩⟩ := fY
  have hzero : Y.containsNum (.dbl (.fin 0)) = true ↔ Y.Mem 0 := by
    show (Dbl.le Y.a.val (.fin 0) && Dbl.le (.fin 0) Y.b.val) = true ↔ Y.a.val.Lower 0 ∧ Y.b.val.Upper 0
    rw [hya, hyb]
    simp [Dbl.le, Dbl.Lower, Dbl.Upper]
  constructor
  · intro h0
    unfold FIv.div
    rw [if_pos (hzero.mpr h0)]; rfl
  intro h0
  obtain ⟨y0, hy0⟩ := hne
  have hsgn : 0 < ya ∨ yb < 0 := by
    have a1 : (ya : ℝ) ≤ y0 := by have := hy0.1; rw [hya] at this; exact this
    have a2 : y0 ≤ (yb : ℝ) := by have := hy0.2; rw [hyb] at this; exact this
    by_contra hc
    push Not at hc
    apply h0
    refine ⟨?_, ?_⟩
    · rw [hya]; show (ya : ℝ) ≤ 0; exact_mod_cast hc.1
    · rw [hyb]; show (0 : ℝ) ≤ yb; exact_mod_cast hc.2
  have hle : ya ≤ yb := by
    have a1 : (ya : ℝ) ≤ y0 := by have := hy0.1; rw [hya] at this; exact this
    have a2 : y0 ≤ (yb : ℝ) := by have := hy0.2; rw [hyb] at this; exact this
    exact_mod_cast a1.trans a2
  have na : ya ≠ 0 := by rcases hsgn with h | h <;> intro e <;> linarith
  have nb : yb ≠ 0 := by rcases hsgn with h | h <;> intro e <;> linarith
  let P : Fin 4 → Mode → Except Err Num :=
    ![fun m => Num.div m X.a Y.a, fun m => Num.div m X.a Y.b, fun m => Num.div m X.b Y.a,
      fun m => Num.div m X.b Y.b]
  let t : Fin 4 → ℚ := ![xa / ya, xa / yb, xb / ya, xb / yb]
  have h : ∀ i m, ∃ v : Num, P i m = .ok v ∧ v.val = round m (t i) ∧ v.IntsLe (2 ^ 53) := by
    intro i m
    fin_cases i
    · exact num_div m hX.1 hY.1 hxa hya na
    · exact num_div m hX.1 hY.2 hxa hyb nb
    · exact num_div m hX.2 hY.1 hxb hya na
    · exact num_div m hX.2 hY.2 hxb hyb nb
  obtain ⟨Z, hZ, hm⟩ := four_corners s h .classical
  refine ⟨Z, ?_, ?_⟩
  · unfold FIv.div; rw [if_neg (by rw [hzero]; exact h0), cX, cY]; exact hZ
  · rintro x y ⟨hx1, hx2⟩ ⟨hy1, hy2⟩
    rw [hxa] at hx1; rw [hxb] at hx2; rw [hya] at hy1; rw [hyb] at hy2
    have hx : (xa : ℝ) ≤ x ∧ x ≤ xb := ⟨hx1, hx2⟩
    have hsR : 0 < (ya : ℝ) ∨ (yb : ℝ) < 0 := by
      rcases hsgn with h | h
      · left; exact_mod_cast h
      · right; exact_mod_cast h
    have hy := inv_mem_of hsR ⟨hy1, hy2⟩
    have e : ∀ i, ((t i : ℚ) : ℝ) = ![(xa / ya : ℝ), xa / yb, xb / ya, xb / yb] i := by
      intro i; fin_cases i <;> simp [t]
    apply hm
    · rcases exists_le_of_min4 (min4_le_mul hx hy) with h | h | h | h <;> simp only [mul_one_div] at h
      exacts [⟨1, by rw [e]; exact h⟩, ⟨0, by rw [e]; exact h⟩, ⟨3, by rw [e]; exact h⟩,
        ⟨2, by rw [e]; exact h⟩]
    · rcases exists_le_of_max4 (mul_le_max4 hx hy) with h | h | h | h <;> simp only [mul_one_div] at h
      exacts [⟨1, by rw [e]; exact h⟩, ⟨0, by rw [e]; exact h⟩, ⟨3, by rw [e]; exact h⟩,
        ⟨2, by rw [e]; exact h⟩]

end IntvalPy
