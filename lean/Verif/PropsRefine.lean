import Verif.PropsPower
import Verif.PropsKernel

/-!
# C90: the float level computes the formulas of the exact level, rounded

For endpoints of moderate size the binary64 model (`ModelFloat`) agrees with the model over an ordered field
(`ModelKernel`) with the rounding `Rnd.b64`, in every ambient rounding mode.
-/

set_option autoImplicit false
set_option linter.unusedSectionVars false

namespace IntvalPy
open FIv

/-- The number `x` has the finite value `q`, a double of magnitude at most `2^500`; an `int` is at most `2^26`. -/
def Num.Fits (x : Num) (q : ℚ) : Prop := x.val = .fin q ∧ x.IntsLe (2 ^ 26) ∧ IsF q ∧ |q| ≤ 2 ^ 500

/-- The interval object `X` has the class and the endpoint values of `Y`. -/
def FIv.Fits (X : FIv) (Y : Iv ℚ) : Prop := X.cls = Y.cls ∧ X.a.Fits Y.a ∧ X.b.Fits Y.b

/-- The interval object with the given double endpoints. -/
def emb (W : Iv ℚ) : FIv := ⟨W.cls, .dbl (.fin W.a), .dbl (.fin W.b)⟩

/-- Rounding in the mode `m` is the function `r` for magnitudes up to `2^1010`. -/
structure RM (m : Mode) (r : ℚ → ℚ) : Prop where
  eq : ∀ t, |t| ≤ 2 ^ 1010 → round m t = .fin (r t)
  bound : ∀ t (k : ℕ), |t| ≤ 2 ^ k → |r t| ≤ 2 ^ k
  isF : ∀ t, IsF (r t)

theorem isF_two_pow (k : ℕ) : IsF ((2 : ℚ) ^ k) := by
  have := isF_of_int (K := ℚ) (m := 1) (e := k) (by norm_num) (by omega)
  simpa using this

theorem two1010_le_maxFin : (2 : ℚ) ^ 1010 ≤ maxFin := by
  have h : (2 : ℚ) ^ 1010 = 2 ^ 39 * 2 ^ 971 := by rw [← pow_add]
  rw [h, maxFin]
  exact mul_le_mul_of_nonneg_right (by norm_num) (by positivity)

theorem floorTo_bound {t : ℚ} {k : ℕ} (h : |t| ≤ 2 ^ k) : |(floorTo t : ℚ)| ≤ 2 ^ k := by
  rw [abs_le] at h ⊢
  exact ⟨le_floorTo (isF_two_pow k).neg h.1, (floorTo_le t).trans h.2⟩

theorem ceilTo_bound {t : ℚ} {k : ℕ} (h : |t| ≤ 2 ^ k) : |(ceilTo t : ℚ)| ≤ 2 ^ k := by
  rw [abs_le] at h ⊢
  exact ⟨h.1.trans (le_ceilTo t), ceilTo_le (isF_two_pow k) h.2⟩

theorem nearTo_bound {t : ℚ} {k : ℕ} (h : |t| ≤ 2 ^ k) : |(nearTo t : ℚ)| ≤ 2 ^ k := by
  rcases nearTo_choice t with e | e <;> rw [e]
  · exact floorTo_bound h
  · exact ceilTo_bound h

theorem rm_down : RM .down (Rnd.b64 : Rnd ℚ).dn where
  eq t h := by
    have h1 := abs_le.mp (floorTo_bound h)
    have h2 := two1010_le_maxFin
    change round .down t = .fin (floorTo t)
    simp only [round]
    rw [if_neg (by linarith [h1.2]), if_neg (by linarith [h1.1])]
  bound _ _ h := floorTo_bound h
  isF t := floorTo_isF t

theorem rm_up : RM .up (Rnd.b64 : Rnd ℚ).up where
  eq t h := by
    have h1 := abs_le.mp (ceilTo_bound h)
    have h2 := two1010_le_maxFin
    change round .up t = .fin (ceilTo t)
    simp only [round]
    rw [if_neg (by linarith [h1.2]), if_neg (by linarith [h1.1])]
  bound _ _ h := ceilTo_bound h
  isF t := ceilTo_isF t

theorem rm_nearest : RM .nearest (Rnd.b64 : Rnd ℚ).nr where
  eq t h := by
    have h1 := abs_le.mp (nearTo_bound h)
    have h2 := two1010_le_maxFin
    change round .nearest t = .fin (nearTo t)
    simp only [round]
    rw [if_neg (by linarith [h1.2]), if_neg (by linarith [h1.1])]
  bound _ _ h := nearTo_bound h
  isF t := nearTo_isF t

theorem Num.Fits.ints {x : Num} {q : ℚ} (h : x.Fits q) : x.IntsLe (2 ^ 53) := h.2.1.mono (by norm_num)
theorem Num.Fits.ints52 {x : Num} {q : ℚ} (h : x.Fits q) : x.IntsLe (2 ^ 52) := h.2.1.mono (by norm_num)

theorem fits_dbl {q : ℚ} (h1 : IsF q) (h2 : |q| ≤ 2 ^ 500) : (Num.dbl (.fin q)).Fits q := ⟨rfl, trivial, h1, h2⟩

/-- A number that is an exact value or small integer, ready to be stored. -/
def Num.Val (x : Num) (q : ℚ) : Prop := x.val = .fin q ∧ x.IntsLe (2 ^ 53)

theorem pow_le_1010 {t : ℚ} {k : ℕ} (h : |t| ≤ 2 ^ k) (hk : k ≤ 1010) : |t| ≤ 2 ^ 1010 :=
  h.trans (pow_le_pow_right₀ (by norm_num) hk)

theorem mul_bound {p q : ℚ} (hp : |p| ≤ 2 ^ 500) (hq : |q| ≤ 2 ^ 500) : |p * q| ≤ 2 ^ 1000 := by
  rw [abs_mul]
  calc |p| * |q| ≤ 2 ^ 500 * 2 ^ 500 := mul_le_mul hp hq (abs_nonneg _) (by positivity)
    _ = 2 ^ 1000 := by rw [← pow_add]

theorem add_bound {p q : ℚ} {k : ℕ} (hp : |p| ≤ 2 ^ k) (hq : |q| ≤ 2 ^ k) : |p + q| ≤ 2 ^ (k + 1) := by
  calc |p + q| ≤ |p| + |q| := abs_add_le _ _
    _ ≤ 2 ^ k + 2 ^ k := add_le_add hp hq
    _ = 2 ^ (k + 1) := by ring

theorem sub_bound {p q : ℚ} {k : ℕ} (hp : |p| ≤ 2 ^ k) (hq : |q| ≤ 2 ^ k) : |p - q| ≤ 2 ^ (k + 1) := by
  rw [sub_eq_add_neg]; exact add_bound hp (by rwa [abs_neg])

theorem up1 {p : ℚ} {k : ℕ} (hp : |p| ≤ 2 ^ k) : |p| ≤ 2 ^ (k + 1) :=
  hp.trans (pow_le_pow_right₀ (by norm_num) (Nat.le_succ k))

section ops
variable {m : Mode} {r : ℚ → ℚ} (hr : RM m r)
include hr

theorem fits_add {x y : Num} {p q : ℚ} (hx : x.Fits p) (hy : y.Fits q) :
    ∃ v, Num.add m x y = .ok v ∧ v.Val (r (p + q)) := by
  obtain ⟨v, h1, h2, h3⟩ := num_add m hx.ints52 hy.ints52
  refine ⟨v, h1, ?_, h3⟩
  rw [h2, hx.1, hy.1]
  exact hr.eq _ (pow_le_1010 (add_bound hx.2.2.2 hy.2.2.2) (by norm_num))

theorem fits_sub {x y : Num} {p q : ℚ} (hx : x.Fits p) (hy : y.Fits q) :
    ∃ v, Num.sub m x y = .ok v ∧ v.Val (r (p - q)) := by
  obtain ⟨v, h1, h2, h3⟩ := num_sub m hx.ints52 hy.ints52
  refine ⟨v, h1, ?_, h3⟩
  rw [h2, hx.1, hy.1]
  change round m (p + -q) = _
  rw [← sub_eq_add_neg]
  exact hr.eq _ (pow_le_1010 (sub_bound hx.2.2.2 hy.2.2.2) (by norm_num))

theorem fits_mul {x y : Num} {p q : ℚ} (hx : x.Fits p) (hy : y.Fits q) :
    ∃ v, Num.mul m x y = .ok v ∧ v.Val (r (p * q)) := by
  obtain ⟨v, h1, h2, h3⟩ := num_mul m hx.2.1 hy.2.1
  refine ⟨v, h1, ?_, h3⟩
  rw [h2, hx.1, hy.1]
  exact hr.eq _ (pow_le_1010 (mul_bound hx.2.2.2 hy.2.2.2) (by norm_num))

end ops

theorem stored {x : M Num} {m : Mode} {v : Num} {q : ℚ} (h : (x m).1 = .ok v) (hv : v.Val q) :
    ((FIv.store x) m).1 = .ok (.dbl (.fin q)) := by
  rw [run_store h hv.2, hv.1]

theorem val_min2 {x y : Num} {p q : ℚ} (hx : x.Val p) (hy : y.Val q) : (x.min2 y).Val (min p q) := by
  refine ⟨min2_fin hx.1 hy.1, ?_⟩
  unfold Num.min2
  split_ifs
  exacts [hy.2, hx.2]

theorem val_max2 {x y : Num} {p q : ℚ} (hx : x.Val p) (hy : y.Val q) : (x.max2 y).Val (max p q) := by
  refine ⟨max2_fin hx.1 hy.1, ?_⟩
  unfold Num.max2
  split_ifs
  exacts [hy.2, hx.2]

/-! ## Sums -/

theorem refine_add {X Y : FIv} {X' Y' : Iv ℚ} (s : Mode) (hX : X.Fits X') (hY : Y.Fits Y') :
    FIv.add X Y s = (.ok (emb (X'.add Rnd.b64 Y')), s) := by
  obtain ⟨v, h1, h2⟩ := fits_add rm_down hX.2.1 hY.2.1
  obtain ⟨w, h3, h4⟩ := fits_add rm_up hX.2.2 hY.2.2
  have := run_two_ok (s := s) (f := fun inf sup =>
    ⟨match X.cls with | .classical => Y.cls | .kaucher => .kaucher, inf, sup⟩)
    (stored (x := nadd X.a Y.a) h1 h2) (stored (x := nadd X.b Y.b) h3 h4)
  refine this.trans ?_
  rw [hX.1, hY.1]
  unfold Iv.add emb
  cases X'.cls <;> rfl

theorem refine_sub {X Y : FIv} {X' Y' : Iv ℚ} (s : Mode) (hX : X.Fits X') (hY : Y.Fits Y') :
    FIv.sub X Y s = (.ok (emb (X'.sub Rnd.b64 Y')), s) := by
  obtain ⟨v, h1, h2⟩ := fits_sub rm_down hX.2.1 hY.2.2
  obtain ⟨w, h3, h4⟩ := fits_sub rm_up hX.2.2 hY.2.1
  have := run_two_ok (s := s) (f := fun inf sup =>
    ⟨match X.cls with | .classical => Y.cls | .kaucher => .kaucher, inf, sup⟩)
    (stored (x := nsub X.a Y.b) h1 h2) (stored (x := nsub X.b Y.a) h3 h4)
  refine this.trans ?_
  rw [hX.1, hY.1]
  unfold Iv.sub emb
  cases X'.cls <;> rfl

theorem refine_radd {X : FIv} {X' : Iv ℚ} {c : Num} {q : ℚ} (s : Mode) (hX : X.Fits X') (hc : c.Fits q) :
    FIv.radd c X s = (.ok (emb (X'.radd Rnd.b64 q)), s) := by
  obtain ⟨v, h1, h2⟩ := fits_add rm_down hX.2.1 hc
  obtain ⟨w, h3, h4⟩ := fits_add rm_up hX.2.2 hc
  refine (run_two_ok (s := s) (f := fun inf sup => ⟨X.cls, inf, sup⟩)
    (stored (x := nadd X.a c) h1 h2) (stored (x := nadd X.b c) h3 h4)).trans ?_
  rw [hX.1]; rfl

theorem refine_rsub {X : FIv} {X' : Iv ℚ} {c : Num} {q : ℚ} (s : Mode) (hX : X.Fits X') (hc : c.Fits q) :
    FIv.rsub c X s = (.ok (emb (X'.rsub Rnd.b64 q)), s) := by
  obtain ⟨v, h1, h2⟩ := fits_sub rm_down hc hX.2.2
  obtain ⟨w, h3, h4⟩ := fits_sub rm_up hc hX.2.1
  refine (run_two_ok (s := s) (f := fun inf sup => ⟨X.cls, inf, sup⟩)
    (stored (x := nsub c X.b) h1 h2) (stored (x := nsub c X.a) h3 h4)).trans ?_
  rw [hX.1]; rfl

/-! ## The Kaucher products -/

theorem isF_max_zero {q : ℚ} (h : IsF q) : IsF (max q 0) := by
  rcases max_choice q 0 with e | e <;> rw [e]
  exacts [h, isF_zero]

theorem plus_bound {q : ℚ} {k : ℕ} (h : |q| ≤ 2 ^ k) : |Iv.plus q| ≤ 2 ^ k := by
  unfold Iv.plus
  rcases max_choice q 0 with e | e <;> rw [e]
  · exact h
  · simp

theorem minus_cases (q : ℚ) : Iv.minus q = 0 ∨ Iv.minus q = -q := by
  unfold Iv.minus Iv.plus
  rcases max_choice q 0 with e | e <;> rw [e]
  · left; ring
  · right; ring

theorem minus_bound {q : ℚ} {k : ℕ} (h : |q| ≤ 2 ^ k) : |Iv.minus q| ≤ 2 ^ k := by
  rcases minus_cases q with e | e <;> rw [e]
  · simp
  · rwa [abs_neg]

theorem minus_isF {q : ℚ} (h : IsF q) : IsF (Iv.minus q) := by
  rcases minus_cases q with e | e <;> rw [e]
  exacts [isF_zero, h.neg]

theorem run_plus {x : Num} {q : ℚ} (hx : x.Fits q) (s : Mode) :
    FIv.plus x s = (.ok (.dbl (.fin (Iv.plus q))), s) := by
  have h : (x.max2 (.dbl (.fin 0))).Val (Iv.plus q) := val_max2 ⟨hx.1, hx.ints⟩ ⟨rfl, trivial⟩
  have h2 : ((FIv.plus x) s).1 = .ok (.dbl (.fin (Iv.plus q))) :=
    stored (x := (pure (x.max2 (.dbl (.fin 0))) : M Num)) rfl h
  have h3 : ((FIv.plus x) s).2 = s := by
    unfold FIv.plus FIv.store
    rw [run_bind]
    rfl
  exact Prod.ext h2 h3

theorem run_minus {x : Num} {q : ℚ} (hx : x.Fits q) (s : Mode) :
    FIv.store (nsub (.dbl (.fin (Iv.plus q))) x) s = (.ok (.dbl (.fin (Iv.minus q))), s) := by
  obtain ⟨v, h1, h2, h3⟩ := num_sub (x := .dbl (.fin (Iv.plus q))) (y := x) s trivial hx.ints52
  have h4 : v.Val (Iv.minus q) := by
    refine ⟨?_, h3⟩
    rw [h2, hx.1]
    change round s (Iv.plus q + -q) = _
    rw [← sub_eq_add_neg]
    change round s (Iv.minus q) = _
    have hb := abs_le.mp ((minus_bound hx.2.2.2).trans
      ((pow_le_pow_right₀ (by norm_num) (by norm_num : 500 ≤ 1010)).trans two1010_le_maxFin))
    exact isF_le_maxFin_round s (minus_isF hx.2.2.1) hb.2 hb.1
  have h5 : (FIv.store (nsub (.dbl (.fin (Iv.plus q))) x) s).1 = .ok (.dbl (.fin (Iv.minus q))) :=
    stored (x := nsub (.dbl (.fin (Iv.plus q))) x) h1 h4
  have h6 : (FIv.store (nsub (.dbl (.fin (Iv.plus q))) x) s).2 = s := by
    have : nsub (.dbl (.fin (Iv.plus q))) x s = (.ok v, s) := Prod.ext h1 rfl
    unfold FIv.store
    rw [run_bind, this]
    rfl
  exact Prod.ext h5 h6

theorem run_parts {a b : Num} {p q : ℚ} (ha : a.Fits p) (hb : b.Fits q) (s : Mode) :
    FIv.parts a b s = (.ok ⟨.dbl (.fin (Iv.plus p)), .dbl (.fin (Iv.minus p)), .dbl (.fin (Iv.plus q)),
      .dbl (.fin (Iv.minus q))⟩, s) := by
  unfold FIv.parts
  simp only [run_bind, run_plus ha, run_plus hb, run_minus ha, run_minus hb]
  rfl

/-- A double with a given value, as a Python number. -/
abbrev D (q : ℚ) : Num := .dbl (.fin q)

section forms
variable {m : Mode} {r : ℚ → ℚ} (hr : RM m r)
include hr

theorem run_nmul {p q : ℚ} (h : |p * q| ≤ 2 ^ 1000) : nmul (D p) (D q) m = (.ok (D (r (p * q))), m) := by
  change ((.ok (.dbl (round m (p * q))) : Except Err Num), m) = _
  rw [hr.eq _ (pow_le_1010 h (by norm_num))]

theorem run_nadd {p q : ℚ} {k : ℕ} (hk : k < 1010) (hp : |p| ≤ 2 ^ k) (hq : |q| ≤ 2 ^ k) :
    nadd (D p) (D q) m = (.ok (D (r (p + q))), m) := by
  change ((.ok (.dbl (round m (p + q))) : Except Err Num), m) = _
  rw [hr.eq _ (pow_le_1010 (add_bound hp hq) hk)]

theorem run_nsub {p q : ℚ} {k : ℕ} (hk : k < 1010) (hp : |p| ≤ 2 ^ k) (hq : |q| ≤ 2 ^ k) :
    nsub (D p) (D q) m = (.ok (D (r (p - q))), m) := by
  change ((.ok (.dbl (round m (p + -q))) : Except Err Num), m) = _
  rw [← sub_eq_add_neg, hr.eq _ (pow_le_1010 (sub_bound hp hq) hk)]

theorem max2_D (p q : ℚ) : (D p).max2 (D q) = D (max p q) := by
  unfold Num.max2 Num.lt
  simp only [Num.val, Dbl.lt, decide_eq_true_eq]
  by_cases h : p < q
  · rw [if_pos h, max_eq_right h.le]
  · rw [if_neg h, max_eq_left (not_lt.mp h)]

theorem run_maxForm {p1 q1 p2 q2 p3 q3 p4 q4 : ℚ} (h1 : |p1 * q1| ≤ 2 ^ 1000) (h2 : |p2 * q2| ≤ 2 ^ 1000)
    (h3 : |p3 * q3| ≤ 2 ^ 1000) (h4 : |p4 * q4| ≤ 2 ^ 1000) :
    FIv.maxForm (D p1) (D q1) (D p2) (D q2) (D p3) (D q3) (D p4) (D q4) m
      = (.ok (D (Iv.maxForm r (p1 * q1) (p2 * q2) (p3 * q3) (p4 * q4))), m) := by
  have hmax : ∀ {x y : ℚ}, |x| ≤ 2 ^ 1000 → |y| ≤ 2 ^ 1000 → |max x y| ≤ 2 ^ 1000 := by
    intro x y hx hy
    rcases max_choice x y with e | e <;> rw [e]
    exacts [hx, hy]
  unfold FIv.maxForm
  simp only [run_bind, run_nmul hr h1, run_nmul hr h2, run_nmul hr h3, run_nmul hr h4, max2_D hr]
  exact run_nsub hr (k := 1000) (by norm_num) (hmax (hr.bound _ _ h1) (hr.bound _ _ h2))
    (hmax (hr.bound _ _ h3) (hr.bound _ _ h4))

theorem run_sumForm {p1 q1 p2 q2 p3 q3 p4 q4 : ℚ} (h1 : |p1 * q1| ≤ 2 ^ 1000) (h2 : |p2 * q2| ≤ 2 ^ 1000)
    (h3 : |p3 * q3| ≤ 2 ^ 1000) (h4 : |p4 * q4| ≤ 2 ^ 1000) :
    FIv.sumForm (D p1) (D q1) (D p2) (D q2) (D p3) (D q3) (D p4) (D q4) m
      = (.ok (D (Iv.sumForm r (p1 * q1) (p2 * q2) (p3 * q3) (p4 * q4))), m) := by
  have b1 := hr.bound _ _ h1
  have b2 := hr.bound _ _ h2
  have b3 := hr.bound _ _ h3
  have b4 := hr.bound _ _ h4
  have c1 := hr.bound _ _ (add_bound b1 b2)
  have c2 := hr.bound _ _ (sub_bound c1 (up1 b3))
  unfold FIv.sumForm
  simp only [run_bind, run_nmul hr h1, run_nmul hr h2, run_nmul hr h3, run_nmul hr h4,
    run_nadd hr (k := 1000) (by norm_num) b1 b2, run_nsub hr (k := 1001) (by norm_num) c1 (up1 b3),
    run_nsub hr (k := 1002) (by norm_num) c2 (up1 (up1 b4))]
  rfl

end forms

/-- A combination of eight parts on the float level and the one of four products on the exact level agree. -/
def FormOk (f : Num → Num → Num → Num → Num → Num → Num → Num → M Num)
    (g : (ℚ → ℚ) → ℚ → ℚ → ℚ → ℚ → ℚ) : Prop :=
  ∀ (m : Mode) (r : ℚ → ℚ), RM m r → ∀ p1 q1 p2 q2 p3 q3 p4 q4 : ℚ, |p1 * q1| ≤ 2 ^ 1000 → |p2 * q2| ≤ 2 ^ 1000 →
    |p3 * q3| ≤ 2 ^ 1000 → |p4 * q4| ≤ 2 ^ 1000 →
    f (D p1) (D q1) (D p2) (D q2) (D p3) (D q3) (D p4) (D q4) m
      = (.ok (D (g r (p1 * q1) (p2 * q2) (p3 * q3) (p4 * q4))), m)

theorem formOk_max : FormOk FIv.maxForm Iv.maxForm := fun _ _ hr _ _ _ _ _ _ _ _ h1 h2 h3 h4 =>
  run_maxForm hr h1 h2 h3 h4

theorem formOk_sum : FormOk FIv.sumForm Iv.sumForm := fun _ _ hr _ _ _ _ _ _ _ _ h1 h2 h3 h4 =>
  run_sumForm hr h1 h2 h3 h4

theorem refine_mulForm {f : Num → Num → Num → Num → Num → Num → Num → Num → M Num}
    {g : (ℚ → ℚ) → ℚ → ℚ → ℚ → ℚ → ℚ} (hfg : FormOk f g) {X Y : FIv} {X' Y' : Iv ℚ} (s : Mode)
    (hXa : X.a.Fits X'.a) (hXb : X.b.Fits X'.b) (hYa : Y.a.Fits Y'.a) (hYb : Y.b.Fits Y'.b) :
    FIv.mulForm f X Y s
      = (.ok (emb ⟨.kaucher, Iv.kInf (g (Rnd.b64 : Rnd ℚ).dn) X' Y', Iv.kSup (g (Rnd.b64 : Rnd ℚ).up) X' Y'⟩), s) := by
  have pp := plus_bound hXa.2.2.2
  have pm := minus_bound hXa.2.2.2
  have sp := plus_bound hXb.2.2.2
  have sm := minus_bound hXb.2.2.2
  have qp := plus_bound hYa.2.2.2
  have qm := minus_bound hYa.2.2.2
  have tp := plus_bound hYb.2.2.2
  have tm := minus_bound hYb.2.2.2
  have h1 := hfg _ _ rm_down _ _ _ _ _ _ _ _ (mul_bound pp qp) (mul_bound sm tm) (mul_bound sp qm) (mul_bound pm tp)
  have h2 := hfg _ _ rm_up _ _ _ _ _ _ _ _ (mul_bound sp tp) (mul_bound pm qm) (mul_bound pp tm) (mul_bound sm qp)
  unfold FIv.mulForm
  simp only [run_bind, run_parts hXa hXb, run_parts hYa hYb]
  exact run_two_ok (s := s) (f := fun inf sup => ⟨.kaucher, inf, sup⟩)
    (stored (congrArg Prod.fst h1) ⟨rfl, trivial⟩) (stored (congrArg Prod.fst h2) ⟨rfl, trivial⟩)

/-! ## Classical products and quotients -/

theorem refine_four {P : Fin 4 → Mode → Except Err Num} {t : Fin 4 → ℚ} (s : Mode)
    (hd : ∀ i, ∃ v : Num, P i .down = .ok v ∧ v.Val ((Rnd.b64 : Rnd ℚ).dn (t i)))
    (hu : ∀ i, ∃ v : Num, P i .up = .ok v ∧ v.Val ((Rnd.b64 : Rnd ℚ).up (t i))) :
    (do
      let inf ← M.withRounding .down (FIv.store (FIv.min4 (M.op (P 0)) (M.op (P 1)) (M.op (P 2)) (M.op (P 3))))
      let sup ← M.withRounding .up (FIv.store (FIv.max4 (M.op (P 0)) (M.op (P 1)) (M.op (P 2)) (M.op (P 3))))
      pure (FIv.mk .classical inf sup) : M FIv) s = (.ok (emb ⟨.classical,
        min (min (min (Rnd.b64.dn (t 0)) (Rnd.b64.dn (t 1))) (Rnd.b64.dn (t 2))) (Rnd.b64.dn (t 3)),
        max (max (max (Rnd.b64.up (t 0)) (Rnd.b64.up (t 1))) (Rnd.b64.up (t 2))) (Rnd.b64.up (t 3))⟩), s) := by
  choose v hv hv' using hd
  choose w hw hw' using hu
  exact run_two_ok (s := s) (f := fun inf sup => ⟨.classical, inf, sup⟩)
    (stored (run_min4 (hv 0) (hv 1) (hv 2) (hv 3)) (val_min2 (val_min2 (val_min2 (hv' 0) (hv' 1)) (hv' 2)) (hv' 3)))
    (stored (run_max4 (hw 0) (hw 1) (hw 2) (hw 3)) (val_max2 (val_max2 (val_max2 (hw' 0) (hw' 1)) (hw' 2)) (hw' 3)))

theorem refine_mul {X Y : FIv} {X' Y' : Iv ℚ} (s : Mode) (hX : X.Fits X') (hY : Y.Fits Y') :
    FIv.mul X Y s = (.ok (emb (X'.mul Rnd.b64 Y')), s) := by
  unfold FIv.mul Iv.mul
  rw [hX.1, hY.1]
  cases hx : X'.cls with
  | classical =>
    cases hy : Y'.cls with
    | classical =>
      refine (refine_four (P := ![fun m => Num.mul m X.a Y.a, fun m => Num.mul m X.a Y.b, fun m => Num.mul m X.b Y.a,
        fun m => Num.mul m X.b Y.b]) (t := ![X'.a * Y'.a, X'.a * Y'.b, X'.b * Y'.a, X'.b * Y'.b]) s ?_ ?_)
      · intro i
        fin_cases i
        exacts [fits_mul rm_down hX.2.1 hY.2.1, fits_mul rm_down hX.2.1 hY.2.2, fits_mul rm_down hX.2.2 hY.2.1,
          fits_mul rm_down hX.2.2 hY.2.2]
      · intro i
        fin_cases i
        exacts [fits_mul rm_up hX.2.1 hY.2.1, fits_mul rm_up hX.2.1 hY.2.2, fits_mul rm_up hX.2.2 hY.2.1,
          fits_mul rm_up hX.2.2 hY.2.2]
    | kaucher => exact refine_mulForm formOk_sum s hX.2.1 hX.2.2 hY.2.1 hY.2.2
  | kaucher => exact refine_mulForm formOk_max s hX.2.1 hX.2.2 hY.2.1 hY.2.2

theorem refine_rmul {X : FIv} {X' : Iv ℚ} {c : Num} {q : ℚ} (s : Mode) (hX : X.Fits X') (hc : c.Fits q) :
    FIv.rmul c X s = (.ok (emb (X'.rmul Rnd.b64 q)), s) := by
  unfold FIv.rmul Iv.rmul
  rw [hX.1]
  cases hx : X'.cls with
  | classical =>
    obtain ⟨v1, h1, k1⟩ := fits_mul rm_down hc hX.2.1
    obtain ⟨v2, h2, k2⟩ := fits_mul rm_down hc hX.2.2
    obtain ⟨v3, h3, k3⟩ := fits_mul rm_up hc hX.2.1
    obtain ⟨v4, h4, k4⟩ := fits_mul rm_up hc hX.2.2
    refine run_two_ok (s := s) (f := fun inf sup => ⟨.classical, inf, sup⟩) (stored ?_ (val_min2 k1 k2))
      (stored ?_ (val_max2 k3 k4))
    · simp only [run_bind, nmul, M.op, h1, h2]; rfl
    · simp only [run_bind, nmul, M.op, h3, h4]; rfl
  | kaucher =>
    exact refine_mulForm (X' := X') (Y := ⟨.kaucher, c, c⟩) (Y' := ⟨.kaucher, q, q⟩) formOk_sum s hX.2.1 hX.2.2 hc hc

/-- Zero or not too small: the reciprocal stays below `2^500`. -/
def Sep (q : ℚ) : Prop := q = 0 ∨ 1 ≤ |q| * 2 ^ 500

theorem Sep.recip {q : ℚ} (h : Sep q) (h0 : q ≠ 0) : |1 / q| ≤ 2 ^ 500 := by
  rcases h with h | h
  · exact absurd h h0
  · rw [abs_div, abs_one, div_le_iff₀ (abs_pos.mpr h0), mul_comm]
    exact h

theorem fits_one : (D 1).Fits 1 := fits_dbl (by simpa using isF_two_pow 0) (by
  rw [abs_one]; exact one_le_pow₀ (by norm_num))

theorem fits_int_one : (Num.int 1).Fits 1 := by
  refine ⟨by simp [Num.val], ?_, fits_one.2.2.1, fits_one.2.2.2⟩
  show |(1 : ℤ)| ≤ 2 ^ 26
  norm_num

theorem fits_div {m : Mode} {r : ℚ → ℚ} (hr : RM m r) {x y : Num} {p q : ℚ} (hx : x.Fits p) (hy : y.Fits q)
    (h0 : q ≠ 0) (hs : Sep q) : ∃ v, Num.div m x y = .ok v ∧ v.Val (r (p / q)) := by
  obtain ⟨v, h1, h2, h3⟩ := num_div m (hx.2.1.mono (by norm_num)) (hy.2.1.mono (by norm_num)) hx.1 hy.1 h0
  refine ⟨v, h1, ?_, h3⟩
  rw [h2]
  refine hr.eq _ (pow_le_1010 (k := 1000) ?_ (by norm_num))
  rw [div_eq_mul_one_div]
  exact mul_bound hx.2.2.2 (hs.recip h0)

theorem div_zero_raises (m : Mode) {x y : Num} {p : ℚ} (hx : x.Fits p) (hy : y.Fits 0) :
    Num.div m x y = .error .zeroDivisionError := by
  by_cases h : ∃ z w, x = .int z ∧ y = .int w
  · obtain ⟨z, w, rfl, rfl⟩ := h
    have hw : (w : ℚ) = 0 := Dbl.fin.inj hy.1
    have hw : w = 0 := by exact_mod_cast hw
    simp only [Num.div, if_pos hw]
  · push Not at h
    have gen : Num.div m x y = Num.viaDbl (Dbl.div m) x y := by
      cases x <;> cases y <;> first | rfl | exact absurd rfl (h _ _ rfl)
    rw [gen, viaDbl_of_small _ hx.ints hy.ints, hx.1, hy.1]
    simp only [Dbl.div, if_true]
    rfl

/-- Running the two contexts when the first or the second one fails. -/
theorem run_two_err {p q : M Num} {f : Num → Num → FIv} {s : Mode} {e : Err}
    (h : (p .down).1 = .error e ∨ (∃ v, (p .down).1 = .ok v) ∧ (q .up).1 = .error e) :
    (do
      let inf ← M.withRounding .down p
      let sup ← M.withRounding .up q
      pure (f inf sup) : M FIv) s = (.error e, s) := by
  rw [run_two]
  rcases h with h | ⟨⟨v, h1⟩, h2⟩
  · rw [h]; rfl
  · rw [h1, h2]; rfl

theorem store_err {x : M Num} {m : Mode} {e : Err} (h : (x m).1 = .error e) : (FIv.store x m).1 = .error e := by
  unfold FIv.store
  rw [run_bind]
  rcases hx : x m with ⟨r, s⟩
  rw [hx] at h
  simp only at h
  subst h
  rfl

/-- The two directed quotients `c / p` and `c / q` of a unit. -/
theorem refine_recips {u x y : Num} {p q : ℚ} (hu : u.Fits 1) (hx : x.Fits p) (hy : y.Fits q) (sp : Sep p) (sq : Sep q)
    (s : Mode) (f : Num → Num → FIv) :
    (do
      let inf ← M.withRounding .down (FIv.store (ndiv u x))
      let sup ← M.withRounding .up (FIv.store (ndiv u y))
      pure (f inf sup) : M FIv) s =
      (if p = 0 then .error .zeroDivisionError else if q = 0 then .error .zeroDivisionError
        else .ok (f (D (Rnd.b64.dn (1 / p))) (D (Rnd.b64.up (1 / q)))), s) := by
  by_cases h0 : p = 0
  · subst h0
    rw [if_pos rfl]
    exact run_two_err (.inl (store_err (div_zero_raises _ hu hx)))
  · rw [if_neg h0]
    obtain ⟨v, h1, h2⟩ := fits_div rm_down hu hx h0 sp
    by_cases h3 : q = 0
    · subst h3
      rw [if_pos rfl]
      exact run_two_err (.inr ⟨⟨_, stored (x := ndiv u x) h1 h2⟩, store_err (div_zero_raises _ hu hy)⟩)
    · rw [if_neg h3]
      obtain ⟨w, h4, h5⟩ := fits_div rm_up hu hy h3 sq
      exact run_two_ok (stored (x := ndiv u x) h1 h2) (stored (x := ndiv u y) h4 h5)

theorem fits_recip {m : Mode} {r : ℚ → ℚ} (hr : RM m r) {q : ℚ} (h0 : q ≠ 0) (hs : Sep q) : (D (r (1 / q))).Fits (r (1 / q)) :=
  fits_dbl (hr.isF _) (hr.bound _ _ (hs.recip h0))

theorem refine_recip {Y : FIv} {Y' : Iv ℚ} (c : Cls) (s : Mode) (hY : Y.Fits Y') (ha : Sep Y'.a) (hb : Sep Y'.b) :
    FIv.recip c Y s = ((Iv.recip Rnd.b64 c Y').map emb, s) := by
  refine (refine_recips fits_one hY.2.2 hY.2.1 hb ha s fun inf sup => ⟨c, inf, sup⟩).trans ?_
  unfold Iv.recip
  split_ifs <;> rfl

theorem recip_fits {R : Iv ℚ} {Y' : Iv ℚ} {c : Cls} (ha : Sep Y'.a) (hb : Sep Y'.b)
    (h : Iv.recip (Rnd.b64 : Rnd ℚ) c Y' = .ok R) : (emb R).Fits R := by
  unfold Iv.recip at h
  by_cases h1 : Y'.b = 0
  · rw [if_pos h1] at h; cases h
  rw [if_neg h1] at h
  by_cases h2 : Y'.a = 0
  · rw [if_pos h2] at h; cases h
  rw [if_neg h2] at h
  cases h
  exact ⟨rfl, fits_recip rm_down h1 hb, fits_recip rm_up h2 ha⟩

/-- Continue after a reciprocal. -/
theorem refine_after {Y : FIv} {Y' : Iv ℚ} (c : Cls) (s : Mode) (hY : Y.Fits Y') (ha : Sep Y'.a) (hb : Sep Y'.b)
    (k : FIv → M FIv) (g : Iv ℚ → Iv ℚ) (hk : ∀ R : Iv ℚ, (emb R).Fits R → k (emb R) s = (.ok (emb (g R)), s)) :
    (FIv.recip c Y >>= k) s = (((Iv.recip Rnd.b64 c Y').map g).map emb, s) := by
  rw [run_bind, refine_recip c s hY ha hb]
  rcases h : Iv.recip (Rnd.b64 : Rnd ℚ) c Y' with e | R
  · rfl
  · exact hk R (recip_fits ha hb h)

theorem contains_zero_dbl {X : FIv} {X' : Iv ℚ} (hX : X.Fits X') :
    X.containsNum (.dbl (.fin 0)) = X'.containsNum 0 := by
  unfold FIv.containsNum Iv.containsNum Num.le
  rw [hX.2.1.1, hX.2.2.1]
  simp [Dbl.le, Num.val]

theorem refine_div {X Y : FIv} {X' Y' : Iv ℚ} (s : Mode) (hX : X.Fits X') (hY : Y.Fits Y') (ha : Sep Y'.a) (hb : Sep Y'.b) :
    FIv.div X Y s = ((X'.div Rnd.b64 Y').map emb, s) := by
  unfold FIv.div Iv.div
  rw [contains_zero_dbl hY]
  by_cases h0 : Y'.containsNum 0 = true
  · rw [if_pos h0, if_pos h0]; rfl
  rw [if_neg h0, if_neg h0, hX.1, hY.1]
  cases hx : X'.cls with
  | classical =>
    cases hy : Y'.cls with
    | classical =>
      by_cases h1 : Y'.a = 0
      · simp only [if_pos h1]
        refine run_two_err (.inl (store_err ?_))
        have hya := hY.2.1
        rw [h1] at hya
        simp only [FIv.min4, run_bind, ndiv, M.op, div_zero_raises .down hX.2.1 hya]
      simp only [if_neg h1]
      by_cases h2 : Y'.b = 0
      · simp only [if_pos h2]
        refine run_two_err (.inl (store_err ?_))
        have hyb := hY.2.2
        rw [h2] at hyb
        obtain ⟨v, hv, _⟩ := fits_div rm_down hX.2.1 hY.2.1 h1 ha
        simp only [FIv.min4, run_bind, ndiv, M.op, hv, div_zero_raises .down hX.2.1 hyb]
      simp only [if_neg h2]
      refine (refine_four (P := ![fun m => Num.div m X.a Y.a, fun m => Num.div m X.a Y.b, fun m => Num.div m X.b Y.a,
        fun m => Num.div m X.b Y.b]) (t := ![X'.a / Y'.a, X'.a / Y'.b, X'.b / Y'.a, X'.b / Y'.b]) s ?_ ?_)
      · intro i
        fin_cases i
        exacts [fits_div rm_down hX.2.1 hY.2.1 h1 ha, fits_div rm_down hX.2.1 hY.2.2 h2 hb,
          fits_div rm_down hX.2.2 hY.2.1 h1 ha, fits_div rm_down hX.2.2 hY.2.2 h2 hb]
      · intro i
        fin_cases i
        exacts [fits_div rm_up hX.2.1 hY.2.1 h1 ha, fits_div rm_up hX.2.1 hY.2.2 h2 hb,
          fits_div rm_up hX.2.2 hY.2.1 h1 ha, fits_div rm_up hX.2.2 hY.2.2 h2 hb]
    | kaucher => exact refine_after .kaucher s hY ha hb _ _ fun R hR => refine_mul s hX hR
  | kaucher =>
    cases hy : Y'.cls with
    | classical => exact refine_after .classical s hY ha hb _ _ fun R hR =>
        refine_mulForm formOk_sum s hX.2.1 hX.2.2 hR.2.1 hR.2.2
    | kaucher => exact refine_after .kaucher s hY ha hb _ _ fun R hR => refine_mul s hX hR

theorem refine_rdiv {X : FIv} {X' : Iv ℚ} {c : Num} {q : ℚ} (s : Mode) (hX : X.Fits X') (hc : c.Fits q)
    (ha : Sep X'.a) (hb : Sep X'.b) : FIv.rdiv c X s = ((X'.rdiv Rnd.b64 q).map emb, s) := by
  unfold FIv.rdiv Iv.rdiv
  rw [contains_zero_dbl hX]
  by_cases h0 : X'.containsNum 0 = true
  · rw [if_pos h0, if_pos h0]; rfl
  rw [if_neg h0, if_neg h0, hX.1]
  exact refine_after _ s hX ha hb _ _ fun R hR => refine_rmul s hR hc

theorem div_isDbl {m : Mode} {x y v : Num} (h : Num.div m x y = .ok v) : ∃ d, v = .dbl d := by
  have via : ∀ f, Num.viaDbl f x y = .ok v → ∃ d, v = .dbl d := by
    intro f hf
    unfold Num.viaDbl at hf
    rcases h1 : x.toDbl with e | p
    · rw [h1] at hf; cases hf
    rcases h2 : y.toDbl with e | q
    · rw [h1, h2] at hf; cases hf
    rw [h1, h2] at hf
    change (do let r ← f p q; pure (Num.dbl r)) = Except.ok v at hf
    rcases h3 : f p q with e | r
    · rw [h3] at hf; cases hf
    · rw [h3] at hf; cases hf; exact ⟨r, rfl⟩
  rcases x with z | d <;> rcases y with w | e
  · simp only [Num.div] at h
    split_ifs at h
    · cases h; exact ⟨_, rfl⟩
    · split at h
      · cases h; exact ⟨_, rfl⟩
      · cases h
  all_goals exact via _ h

theorem refine_divUnit {X : FIv} {X' : Iv ℚ} {u c : Num} {q : ℚ} (hu : u.Fits 1) (hX : X.Fits X') (hc : c.Fits q)
    (hs : Sep q) :
    (ndiv u c >>= fun r => FIv.rmul r X) .nearest = ((X'.divNum Rnd.b64 q).map emb, .nearest) := by
  unfold Iv.divNum
  by_cases h0 : q = 0
  · subst h0
    rw [if_pos rfl, run_bind]
    simp only [ndiv, M.op, div_zero_raises .nearest hu hc]
    rfl
  · obtain ⟨v, h1, h2, h3⟩ := fits_div rm_nearest hu hc h0 hs
    rw [if_neg h0, run_bind]
    simp only [ndiv, M.op, h1]
    refine refine_rmul .nearest hX ?_
    obtain ⟨d, rfl⟩ := div_isDbl h1
    have e : d = .fin ((Rnd.b64 : Rnd ℚ).nr (1 / q)) := h2
    rw [e]
    exact fits_recip rm_nearest h0 hs

theorem refine_divNum {X : FIv} {X' : Iv ℚ} {c : Num} {q : ℚ} (hX : X.Fits X') (hc : c.Fits q) (hs : Sep q) :
    FIv.divNum X c .nearest = ((X'.divNum Rnd.b64 q).map emb, .nearest) := by
  unfold FIv.divNum
  refine refine_divUnit ?_ hX hc hs
  cases X.cls
  exacts [fits_one, fits_int_one]

theorem refine_inv {X : FIv} {X' : Iv ℚ} (s : Mode) (hX : X.Fits X') (ha : Sep X'.a) (hb : Sep X'.b) :
    FIv.inv X s = ((X'.inv Rnd.b64).map emb, s) := by
  refine (refine_recips fits_one hX.2.1 hX.2.2 ha hb s
    fun inf sup => ⟨if X.b.le X.a then .classical else .kaucher, inf, sup⟩).trans ?_
  have hle : X.b.le X.a = decide (X'.b ≤ X'.a) := by
    unfold Num.le
    rw [hX.2.1.1, hX.2.2.1]
    rfl
  unfold Iv.inv
  rw [hle]
  by_cases h1 : X'.a = 0
  · rw [if_pos h1, if_pos h1]; rfl
  rw [if_neg h1, if_neg h1]
  by_cases h2 : X'.b = 0
  · rw [if_pos h2, if_pos h2]; rfl
  rw [if_neg h2, if_neg h2]
  by_cases h3 : X'.b ≤ X'.a
  · rw [if_pos h3]; simp only [h3, decide_true, if_true]; rfl
  · rw [if_neg h3]; simp only [h3, decide_false]; rfl

theorem refine_ufuncDiv {X : FIv} {X' : Iv ℚ} {c : Num} {q : ℚ} (s : Mode) (hX : X.Fits X') (hc : c.Fits q)
    (ha : Sep X'.a) (hb : Sep X'.b) : FIv.ufuncDiv c X s = ((X'.ufuncDiv Rnd.b64 q).map emb, s) := by
  have h := refine_recips fits_int_one hX.2.2 hX.2.1 hb ha s fun inf sup => ⟨X.cls, inf, sup⟩
  have e : FIv.ufuncDiv c X = (do
      let inf ← M.withRounding .down (FIv.store (ndiv (.int 1) X.b))
      let sup ← M.withRounding .up (FIv.store (ndiv (.int 1) X.a))
      pure (⟨X.cls, inf, sup⟩ : FIv) : M FIv) >>= fun r => FIv.rmul c r := by
    funext s
    unfold FIv.ufuncDiv
    simp only [run_bind]
    rcases (M.withRounding .down (FIv.store (ndiv (.int 1) X.b)) s) with ⟨v | v, s1⟩
    · rfl
    · simp only
      rcases (M.withRounding .up (FIv.store (ndiv (.int 1) X.a)) s1) with ⟨w | w, s2⟩ <;> rfl
  rw [e, run_bind, h, hX.1]
  unfold Iv.ufuncDiv Iv.recip
  by_cases h1 : X'.b = 0
  · rw [if_pos h1, if_pos h1]; rfl
  rw [if_neg h1, if_neg h1]
  by_cases h2 : X'.a = 0
  · rw [if_pos h2, if_pos h2]; rfl
  rw [if_neg h2, if_neg h2]
  exact refine_rmul (X := ⟨X'.cls, _, _⟩) (X' := ⟨X'.cls, _, _⟩) s ⟨rfl, fits_recip rm_down h1 hb, fits_recip rm_up h2 ha⟩ hc

theorem Num.Fits.neg {x : Num} {q : ℚ} (h : x.Fits q) : x.neg.Fits (-q) := by
  obtain ⟨h1, h2, h3, h4⟩ := h
  cases x with
  | int z =>
    have e : (z : ℚ) = q := Dbl.fin.inj h1
    subst e
    exact ⟨by simp [Num.neg, Num.val], by show |(-z)| ≤ 2 ^ 26; rw [abs_neg]; exact h2, h3.neg, (abs_neg _).le.trans h4⟩
  | dbl d =>
    have e : d = .fin q := h1
    subst e
    exact ⟨rfl, trivial, h3.neg, (abs_neg _).le.trans h4⟩

theorem FIv.Fits.neg {X : FIv} {X' : Iv ℚ} (h : X.Fits X') : (FIv.mk X.cls X.b.neg X.a.neg).Fits X'.neg :=
  ⟨h.1, h.2.2.neg, h.2.1.neg⟩

/-! ## The property -/

/-- C90: for operands of either class, proper or improper, whose endpoints are doubles of magnitude at most `2^500`
or integers up to `2^26`, and in every ambient rounding mode, sums, differences and products (with intervals
and with numbers) succeed and return the endpoint formulas of the exact model in which every elementary operation
is rounded once, downwards for the lower and upwards for the upper endpoint. -/
theorem C90_sums_products (X Y : FIv) (X' Y' : Iv ℚ) (c : Num) (q : ℚ) (s : Mode) (hX : X.Fits X') (hY : Y.Fits Y')
    (hc : c.Fits q) :
    FIv.add X Y s = (.ok (emb (X'.add Rnd.b64 Y')), s) ∧ FIv.sub X Y s = (.ok (emb (X'.sub Rnd.b64 Y')), s) ∧
    FIv.mul X Y s = (.ok (emb (X'.mul Rnd.b64 Y')), s) ∧
    FIv.radd c X s = (.ok (emb (X'.radd Rnd.b64 q)), s) ∧ FIv.rsub c X s = (.ok (emb (X'.rsub Rnd.b64 q)), s) ∧
    FIv.rmul c X s = (.ok (emb (X'.rmul Rnd.b64 q)), s) ∧
    FIv.subNum X c s = (.ok (emb (X'.subNum Rnd.b64 q)), s) ∧
    FIv.ufuncSub c X s = (.ok (emb (X'.ufuncSub Rnd.b64 q)), s) :=
  ⟨refine_add s hX hY, refine_sub s hX hY, refine_mul s hX hY, refine_radd s hX hc, refine_rsub s hX hc,
    refine_rmul s hX hc, refine_radd s hX hc.neg, refine_radd s hX.neg hc⟩

/-- C90: the same for the quotients, the exceptions included, when the endpoints of the divisor are zero or at
least `2^-500` in magnitude.  `X / number` computes a reciprocal in the ambient mode, here to nearest. -/
theorem C90_quotients (X Y : FIv) (X' Y' : Iv ℚ) (c : Num) (q : ℚ) (s : Mode) (hX : X.Fits X') (hY : Y.Fits Y')
    (hc : c.Fits q) (sa : Sep Y'.a) (sb : Sep Y'.b) (sc : Sep q) :
    FIv.div X Y s = ((X'.div Rnd.b64 Y').map emb, s) ∧ FIv.rdiv c Y s = ((Y'.rdiv Rnd.b64 q).map emb, s) ∧
    FIv.inv Y s = ((Y'.inv Rnd.b64).map emb, s) ∧ FIv.ufuncDiv c Y s = ((Y'.ufuncDiv Rnd.b64 q).map emb, s) ∧
    FIv.divNum X c .nearest = ((X'.divNum Rnd.b64 q).map emb, .nearest) :=
  ⟨refine_div s hX hY sa sb, refine_rdiv s hY hc sa sb, refine_inv s hY sa sb, refine_ufuncDiv s hY hc sa sb,
    refine_divNum hX hc sc⟩

/-- C90, consequence: the Kaucher product of intervals with nonnegative endpoints, proper or improper, is
`[a * c rounded down, b * d rounded up]`. -/
theorem C90_kaucher_positive (X Y : FIv) (X' Y' : Iv ℚ) (s : Mode) (hX : X.Fits X') (hY : Y.Fits Y')
    (hk : X.cls = .kaucher) (h1 : 0 ≤ X'.a) (h2 : 0 ≤ X'.b) (h3 : 0 ≤ Y'.a) (h4 : 0 ≤ Y'.b) :
    FIv.mul X Y s = (.ok ⟨.kaucher, .dbl (round .down (X'.a * Y'.a)), .dbl (round .up (X'.b * Y'.b))⟩, s) := by
  have hp : ∀ {t : ℚ}, 0 ≤ t → Iv.plus t = t ∧ Iv.minus t = 0 := fun {t} ht =>
    ⟨max_eq_left ht, by unfold Iv.minus Iv.plus; rw [max_eq_left ht, sub_self]⟩
  rw [refine_mul s hX hY, rm_down.eq _ (pow_le_1010 (mul_bound hX.2.1.2.2.2 hY.2.1.2.2.2) (by norm_num)),
    rm_up.eq _ (pow_le_1010 (mul_bound hX.2.2.2.2.2 hY.2.2.2.2.2) (by norm_num))]
  have e : X'.mul (Rnd.b64 : Rnd ℚ) Y' = ⟨.kaucher, (Rnd.b64 : Rnd ℚ).dn (X'.a * Y'.a), (Rnd.b64 : Rnd ℚ).up (X'.b * Y'.b)⟩ := by
    have d0 : (0 : ℚ) ≤ (Rnd.b64 : Rnd ℚ).dn (X'.a * Y'.a) :=
      le_floorTo isF_zero (mul_nonneg h1 h3)
    have u0 : (0 : ℚ) ≤ (Rnd.b64 : Rnd ℚ).up (X'.b * Y'.b) := (mul_nonneg h2 h4).trans (le_ceilTo _)
    unfold Iv.mul
    rw [← hX.1, hk]
    simp only [Iv.mulMax, Iv.kInf, Iv.kSup, Iv.maxForm, (hp h1).1, (hp h1).2, (hp h2).1, (hp h2).2, (hp h3).1, (hp h3).2,
      (hp h4).1, (hp h4).2, mul_zero, zero_mul, Rnd.dn_zero, Rnd.up_zero, max_self, sub_zero, max_eq_left d0,
      max_eq_left u0]
    congr 1
    · exact floorTo_of_isF (floorTo_isF _)
    · exact ceilTo_of_isF (ceilTo_isF _)
  rw [e]
  rfl

/-- C07 for the Kaucher class: with endpoints of moderate size the outcome of no operation depends on the ambient
rounding mode. -/
theorem C90_mode_free (X Y : FIv) (X' Y' : Iv ℚ) (c : Num) (q : ℚ) (hX : X.Fits X') (hY : Y.Fits Y') (hc : c.Fits q)
    (sa : Sep Y'.a) (sb : Sep Y'.b) :
    ModeFree (FIv.add X Y) ∧ ModeFree (FIv.sub X Y) ∧ ModeFree (FIv.mul X Y) ∧ ModeFree (FIv.rmul c X) ∧
    ModeFree (FIv.div X Y) ∧ ModeFree (FIv.rdiv c Y) ∧ ModeFree (FIv.inv Y) := by
  refine ⟨fun s t => ?_, fun s t => ?_, fun s t => ?_, fun s t => ?_, fun s t => ?_, fun s t => ?_, fun s t => ?_⟩
  · rw [refine_add s hX hY, refine_add t hX hY]
  · rw [refine_sub s hX hY, refine_sub t hX hY]
  · rw [refine_mul s hX hY, refine_mul t hX hY]
  · rw [refine_rmul s hX hc, refine_rmul t hX hc]
  · rw [refine_div s hX hY sa sb, refine_div t hX hY sa sb]
  · rw [refine_rdiv s hY hc sa sb, refine_rdiv t hY hc sa sb]
  · rw [refine_inv s hY sa sb, refine_inv t hY sa sb]

theorem fits_int {z : ℤ} (h : |z| ≤ 2 ^ 26) : (Num.int z).Fits z := by
  refine ⟨rfl, h, isF_int (h.trans (by norm_num)), ?_⟩
  have h1 : |(z : ℚ)| ≤ 2 ^ 26 := by exact_mod_cast h
  exact h1.trans (pow_le_pow_right₀ (by norm_num) (by norm_num))

/-- The hypotheses hold: the improper product `[3, 1] * [2, 5]`, computed in the mode "up", is `[6, 5]`. -/
example : FIv.mul ⟨.kaucher, .int 3, .int 1⟩ ⟨.classical, .int 2, .int 5⟩ .up
    = (.ok ⟨.kaucher, .dbl (.fin 6), .dbl (.fin 5)⟩, .up) := by
  have h := C90_kaucher_positive ⟨.kaucher, .int 3, .int 1⟩ ⟨.classical, .int 2, .int 5⟩
    ⟨.kaucher, ((3 : ℤ) : ℚ), ((1 : ℤ) : ℚ)⟩ ⟨.classical, ((2 : ℤ) : ℚ), ((5 : ℤ) : ℚ)⟩ .up
    ⟨rfl, fits_int (by norm_num), fits_int (by norm_num)⟩ ⟨rfl, fits_int (by norm_num), fits_int (by norm_num)⟩ rfl
    (by norm_num) (by norm_num) (by norm_num) (by norm_num)
  have e1 : round .down (((3 : ℤ) : ℚ) * ((2 : ℤ) : ℚ)) = .fin 6 := by
    have := round_int .down (z := 6) (by norm_num)
    norm_num at this ⊢
    exact this
  have e2 : round .up (((1 : ℤ) : ℚ) * ((5 : ℤ) : ℚ)) = .fin 5 := by
    have := round_int .up (z := 5) (by norm_num)
    norm_num at this ⊢
    exact this
  rw [h]
  simp only [e1, e2]

end IntvalPy
