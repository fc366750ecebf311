import Verif.PropsKernel
import Verif.SpecExpr

/-!
# C12: the fundamental theorem of interval arithmetic for arbitrary expressions
-/

set_option linter.unusedSectionVars false

set_option autoImplicit false

namespace IntvalPy
open Spec

variable {K : Type*} [Field K] [LinearOrder K] [IsStrictOrderedRing K]

theorem bind_ok {α β : Type _} {m : Except Err α} {f : α → Except Err β} {z : β}
    (h : (m >>= f) = .ok z) : ∃ x, m = .ok x ∧ f x = .ok z := by
  cases m with
  | error e => cases h
  | ok x => exact ⟨x, rfl, h⟩

theorem memL {X : Iv K} (h : Ordinary X) : X.a ∈ X := ⟨le_refl _, h.2⟩

theorem rdiv_ok_form {R : Rnd K} {c : K} {X Z : Iv K} (h : Iv.rdiv R c X = .ok Z) :
    Z = Iv.rmul R c ⟨X.cls, R.dn (1 / X.b), R.up (1 / X.a)⟩ := by
  unfold Iv.rdiv Iv.recip at h
  split at h
  · cases h
  split at h
  · cases h
  split at h
  · cases h
  · exact (Except.ok.inj h).symm

theorem rdiv_ok_ordinary (R : Rnd K) (c : K) (X Z : Iv K) (hX : Ordinary X)
    (h : Iv.rdiv R c X = .ok Z) : Ordinary Z := by
  have := C05_rdiv_encloses R c X Z hX h (c / X.a) ⟨X.a, (memL hX), rfl⟩
  refine ⟨?_, this.1.trans this.2⟩
  rw [rdiv_ok_form h]
  simp [Iv.rmul, hX.1]

/-- C12 (full statement of the enclosure part, not provable of the code because of C04). -/
def C12_statement (R : Rnd K) : Prop :=
  ∀ (e : Expr K) (X : ℕ → Iv K) (p : ℕ → K) (Z : Iv K), (∀ i, Ordinary (X i)) → (∀ i, p i ∈ X i) →
    e.evalIv R X = .ok Z → ∃ v, e.evalPt p = some v ∧ v ∈ Z

/-- C12 in full generality is false: `x / 3` on `[1, 1]`, in arithmetic with one decimal digit. -/
theorem C12_eval_encloses_false : ¬ C12_statement (Rnd.grid 10 (by norm_num) : Rnd ℚ) := by
  intro h
  obtain ⟨v, hv, hm⟩ := h (.divNum (.var 0) 3) (fun _ => ⟨.classical, 1, 1⟩) (fun _ => 1)
    ⟨.classical, 3/10, 3/10⟩ (fun _ => ⟨rfl, le_refl _⟩) (fun _ => ⟨le_refl _, le_refl _⟩) (by
      simp only [Expr.evalIv]
      show Iv.divNum (Rnd.grid 10 (by norm_num)) (⟨.classical, 1, 1⟩ : Iv ℚ) 3 = _
      norm_num [Iv.divNum, Iv.rmul, Rnd.grid, Int.floor_eq_iff, Int.ceil_eq_iff])
  simp only [Expr.evalPt] at hv
  norm_num at hv
  subst hv
  norm_num [Iv.mem_def] at hm

/-- C12 (enclosure): whenever an arbitrary expression evaluates successfully on ordinary interval
arguments, its exact value at every point of the arguments exists (no division by zero) and lies in the
computed interval; the result is an ordinary interval.  The hypothesis on plain-number divisors is
needed because of C04. -/
theorem C12_eval_encloses_partial (R : Rnd K) (e : Expr K) (X : ℕ → Iv K) (p : ℕ → K) (Z : Iv K)
    (hX : ∀ i, Ordinary (X i)) (hp : ∀ i, p i ∈ X i)
    (hd : e.DivisorsOk (fun r => R.nr r = r)) (h : e.evalIv R X = .ok Z) :
    Ordinary Z ∧ ∃ v, e.evalPt p = some v ∧ v ∈ Z := by
  induction e generalizing Z with
  | var i => cases h; exact ⟨hX i, p i, rfl, hp i⟩
  | neg e ih =>
    obtain ⟨x, hx, hz⟩ := bind_ok h
    cases hz
    obtain ⟨ho, v, hv, hm⟩ := ih x hd hx
    exact ⟨⟨ho.1, neg_le_neg ho.2⟩, -v, by simp [Expr.evalPt, hv],
      (C01_neg_range x ho.2).1 _ ⟨v, hm, rfl⟩⟩
  | add e f ihe ihf =>
    obtain ⟨x, hx, h⟩ := bind_ok h
    obtain ⟨y, hy, hz⟩ := bind_ok h
    cases hz
    obtain ⟨ho, v, hv, hm⟩ := ihe x hd.1 hx
    obtain ⟨ho', w, hw, hm'⟩ := ihf y hd.2 hy
    exact ⟨(C01_add_sub_ordinary R x y ho ho').1, v + w, by simp [Expr.evalPt, hv, hw],
      C01_add_encloses R x y _ ⟨v, hm, w, hm', rfl⟩⟩
  | sub e f ihe ihf =>
    obtain ⟨x, hx, h⟩ := bind_ok h
    obtain ⟨y, hy, hz⟩ := bind_ok h
    cases hz
    obtain ⟨ho, v, hv, hm⟩ := ihe x hd.1 hx
    obtain ⟨ho', w, hw, hm'⟩ := ihf y hd.2 hy
    exact ⟨(C01_add_sub_ordinary R x y ho ho').2, v - w, by simp [Expr.evalPt, hv, hw],
      C01_sub_encloses R x y _ ⟨v, hm, w, hm', rfl⟩⟩
  | mul e f ihe ihf =>
    obtain ⟨x, hx, h⟩ := bind_ok h
    obtain ⟨y, hy, hz⟩ := bind_ok h
    cases hz
    obtain ⟨ho, v, hv, hm⟩ := ihe x hd.1 hx
    obtain ⟨ho', w, hw, hm'⟩ := ihf y hd.2 hy
    exact ⟨C02_mul_ordinary R x y ho ho', v * w, by simp [Expr.evalPt, hv, hw],
      C02_mul_encloses R x y ho ho' _ ⟨v, hm, w, hm', rfl⟩⟩
  | div e f ihe ihf =>
    obtain ⟨x, hx, h⟩ := bind_ok h
    obtain ⟨y, hy, hz⟩ := bind_ok h
    obtain ⟨ho, v, hv, hm⟩ := ihe x hd.1 hx
    obtain ⟨ho', w, hw, hm'⟩ := ihf y hd.2 hy
    have h0 : ¬ (0 : K) ∈ y := fun h0 => by
      rw [((C03_div_error_iff R x y ho ho').1).mpr h0] at hz; cases hz
    obtain ⟨Z', hZ', hoZ⟩ := (C03_div_error_iff R x y ho ho').2.mpr h0
    have : Z' = Z := by rw [hZ'] at hz; exact Except.ok.inj hz
    subst this
    have hw0 : w ≠ 0 := fun h => h0 (h ▸ hm')
    exact ⟨hoZ, v / w, by simp [Expr.evalPt, hv, hw, hw0],
      C03_div_encloses R x y _ ho ho' hz _ ⟨v, hm, w, hm', rfl⟩⟩
  | pow e n ih =>
    obtain ⟨x, hx, hz⟩ := bind_ok h
    cases hz
    obtain ⟨ho, v, hv, hm⟩ := ih x hd hx
    exact ⟨(C06_pow_encloses R x n ho).2, v ^ n, by simp [Expr.evalPt, hv],
      (C06_pow_encloses R x n ho).1 _ ⟨v, hm, rfl⟩⟩
  | numAdd c e ih =>
    obtain ⟨x, hx, hz⟩ := bind_ok h
    cases hz
    obtain ⟨ho, v, hv, hm⟩ := ih x hd hx
    have henc := (C05_radd_rsub_enclose R c x).1
    have hl := henc (c + x.a) ⟨x.a, (memL ho), rfl⟩
    exact ⟨⟨ho.1, hl.1.trans hl.2⟩, c + v, by simp [Expr.evalPt, hv], henc _ ⟨v, hm, rfl⟩⟩
  | numSub c e ih =>
    obtain ⟨x, hx, hz⟩ := bind_ok h
    cases hz
    obtain ⟨ho, v, hv, hm⟩ := ih x hd hx
    have henc := (C05_radd_rsub_enclose R c x).2.1
    have hl := henc (c - x.a) ⟨x.a, (memL ho), rfl⟩
    exact ⟨⟨ho.1, hl.1.trans hl.2⟩, c - v, by simp [Expr.evalPt, hv], henc _ ⟨v, hm, rfl⟩⟩
  | numMul c e ih =>
    obtain ⟨x, hx, hz⟩ := bind_ok h
    cases hz
    obtain ⟨ho, v, hv, hm⟩ := ih x hd hx
    have henc := C05_rmul_encloses R c x ho
    exact ⟨henc.2.2, c * v, by simp [Expr.evalPt, hv], henc.1 _ ⟨v, hm, rfl⟩⟩
  | numDiv c e ih =>
    obtain ⟨x, hx, hz⟩ := bind_ok h
    obtain ⟨ho, v, hv, hm⟩ := ih x hd hx
    have h0 : ¬ (0 : K) ∈ x := (C05_rdiv_error_iff R c x ho).2.mp ⟨Z, hz⟩
    have hv0 : v ≠ 0 := fun h => h0 (h ▸ hm)
    exact ⟨rdiv_ok_ordinary R c x Z ho hz, c / v, by simp [Expr.evalPt, hv, hv0],
      C05_rdiv_encloses R c x Z ho hz _ ⟨v, hm, rfl⟩⟩
  | subNum e c ih =>
    obtain ⟨x, hx, hz⟩ := bind_ok h
    cases hz
    obtain ⟨ho, v, hv, hm⟩ := ih x hd hx
    have henc := (C05_radd_rsub_enclose R c x).2.2.2.2
    have hl := henc (x.a - c) ⟨x.a, (memL ho), rfl⟩
    exact ⟨⟨ho.1, hl.1.trans hl.2⟩, v - c, by simp [Expr.evalPt, hv], henc _ ⟨v, hm, rfl⟩⟩
  | divNum e c ih =>
    obtain ⟨x, hx, hz⟩ := bind_ok h
    obtain ⟨ho, v, hv, hm⟩ := ih x hd.1 hx
    obtain ⟨hc0, hoZ, henc⟩ := C04_divNum_encloses_partial R x c Z ho hd.2 hz
    exact ⟨hoZ, v / c, by simp [Expr.evalPt, hv, hc0], henc _ ⟨v, hm, rfl⟩⟩

example : Expr.evalIv (Rnd.grid 10 (by norm_num)) (fun _ => (⟨.classical, 1, 2⟩ : Iv ℚ))
    (.sub (.pow (.var 0) 2) (.div (.var 0) (.var 1))) = .ok ⟨.classical, -1, 7/2⟩ := by
  norm_num [Expr.evalIv, Iv.powNat, Iv.div, Iv.divCC, Iv.sub, Iv.containsNum, Rnd.grid,
    bind, Except.bind, pure, Except.pure, Int.floor_eq_iff, Int.ceil_eq_iff]

/-! ### Inclusion isotonicity -/

/-- `X` is an interval inside `Y`, endpoint-wise. -/
def Inside (X Y : Iv K) : Prop := Y.a ≤ X.a ∧ X.b ≤ Y.b

theorem Inside.mem {X Y : Iv K} (h : Inside X Y) {x : K} (hx : x ∈ X) : x ∈ Y :=
  ⟨h.1.trans hx.1, hx.2.trans h.2⟩

theorem memR {X : Iv K} (h : Ordinary X) : X.b ∈ X := ⟨h.2, le_refl _⟩

theorem rmul_inside (R : Rnd K) (c : K) {X X' : Iv K} (hX : Ordinary X) (hX' : Ordinary X')
    (h : Inside X X') : Inside (Iv.rmul R c X) (Iv.rmul R c X') := by
  simp only [Inside, Iv.rmul, hX.1, hX'.1, Rnd.min_dn, Rnd.max_up]
  have l : ∀ x ∈ X', min (c * X'.a) (c * X'.b) ≤ c * x := fun x hx => by
    have := min4_le_mul (a := c) (b := c) (x := c) ⟨le_refl _, le_refl _⟩ hx
    simpa using this
  have u : ∀ x ∈ X', c * x ≤ max (c * X'.a) (c * X'.b) := fun x hx => by
    have := mul_le_max4 (a := c) (b := c) (x := c) ⟨le_refl _, le_refl _⟩ hx
    simpa using this
  exact ⟨R.dn_mono (le_min (l _ (h.mem (memL hX))) (l _ (h.mem (memR hX)))),
    R.up_mono (max_le (u _ (h.mem (memL hX))) (u _ (h.mem (memR hX))))⟩

theorem mul_inside (R : Rnd K) {X X' Y Y' : Iv K} (hX : Ordinary X) (hX' : Ordinary X')
    (hY : Ordinary Y) (hY' : Ordinary Y') (h : Inside X X') (k : Inside Y Y') :
    Inside (X.mul R Y) (X'.mul R Y') := by
  simp only [Inside, Iv.mul, hX.1, hX'.1, hY.1, hY'.1, Iv.mulCC, Rnd.min_dn, Rnd.max_up]
  have l := fun x (hx : x ∈ X') y (hy : y ∈ Y') => min4_le_mul hx hy
  have u := fun x (hx : x ∈ X') y (hy : y ∈ Y') => mul_le_max4 hx hy
  have ha := h.mem (memL hX)
  have hb := h.mem (memR hX)
  have hc := k.mem (memL hY)
  have hd := k.mem (memR hY)
  exact ⟨R.dn_mono (le_min (le_min (le_min (l _ ha _ hc) (l _ ha _ hd)) (l _ hb _ hc)) (l _ hb _ hd)),
    R.up_mono (max_le (max_le (max_le (u _ ha _ hc) (u _ ha _ hd)) (u _ hb _ hc)) (u _ hb _ hd))⟩

theorem div_exact_bounds {X Y : Iv K} (hY : Ordinary Y) (h0 : ¬ (0 : K) ∈ Y)
    {x y : K} (hx : x ∈ X) (hy : y ∈ Y) :
    min (min (min (X.a / Y.a) (X.a / Y.b)) (X.b / Y.a)) (X.b / Y.b) ≤ x / y ∧
    x / y ≤ max (max (max (X.a / Y.a) (X.a / Y.b)) (X.b / Y.a)) (X.b / Y.b) := by
  have hr := inv_mem_of (not_mem_zero_cases hY.2 h0) hy
  have h1 := min4_le_mul hx hr
  have h2 := mul_le_max4 hx hr
  simp only [mul_one_div] at h1 h2
  constructor
  · refine le_trans (le_of_eq ?_) h1
    simp only [min_assoc, min_comm, min_left_comm]
  · refine h2.trans (le_of_eq ?_)
    simp only [max_assoc, max_comm, max_left_comm]

theorem div_eq_divCC (R : Rnd K) {X Y : Iv K} (hX : Ordinary X) (hY : Ordinary Y)
    (h0 : ¬ (0 : K) ∈ Y) : X.div R Y = .ok (Iv.divCC R X Y) := by
  have hc : Y.containsNum 0 = false := by
    simpa using fun h => h0 (containsNum_iff.mp h)
  have ha : Y.a ≠ 0 := fun h => h0 ⟨h.le, h ▸ hY.2⟩
  have hb : Y.b ≠ 0 := fun h => h0 ⟨h ▸ hY.2, h.ge⟩
  simp [Iv.div, hc, hX.1, hY.1, ha, hb]

theorem divCC_inside (R : Rnd K) {X X' Y Y' : Iv K} (hX : Ordinary X)
    (hY : Ordinary Y) (hY' : Ordinary Y') (h : Inside X X') (k : Inside Y Y')
    (h0 : ¬ (0 : K) ∈ Y') : Inside (Iv.divCC R X Y) (Iv.divCC R X' Y') := by
  simp only [Inside, Iv.divCC, Rnd.min_dn, Rnd.max_up]
  have l := fun x (hx : x ∈ X') y (hy : y ∈ Y') => (div_exact_bounds hY' h0 hx hy).1
  have u := fun x (hx : x ∈ X') y (hy : y ∈ Y') => (div_exact_bounds hY' h0 hx hy).2
  have ha := h.mem (memL hX)
  have hb := h.mem (memR hX)
  have hc := k.mem (memL hY)
  have hd := k.mem (memR hY)
  exact ⟨R.dn_mono (le_min (le_min (le_min (l _ ha _ hc) (l _ ha _ hd)) (l _ hb _ hc)) (l _ hb _ hd)),
    R.up_mono (max_le (max_le (max_le (u _ ha _ hc) (u _ ha _ hd)) (u _ hb _ hc)) (u _ hb _ hd))⟩

theorem pow_inside (R : Rnd K) (n : ℕ) {X X' : Iv K} (hX : Ordinary X) (hX' : Ordinary X')
    (h : Inside X X') : Inside (X.powNat R n) (X'.powNat R n) := by
  have ha := h.mem (memL hX)
  have hb := h.mem (memR hX)
  simp only [Inside, Iv.powNat, hX.1, hX'.1, Rnd.min_dn, Rnd.max_up]
  by_cases h' : n % 2 = 0 ∧ X'.containsNum 0
  · have hn : Even n := Nat.even_iff.mpr h'.1
    rw [if_pos h']
    have up : R.up (max (X.a ^ n) (X.b ^ n)) ≤ R.up (max (X'.a ^ n) (X'.b ^ n)) :=
      R.up_mono (max_le (pow_le_max_of_even hn ha) (pow_le_max_of_even hn hb))
    split_ifs
    · exact ⟨le_refl _, up⟩
    · refine ⟨?_, up⟩
      have : R.dn 0 ≤ R.dn (min (X.a ^ n) (X.b ^ n)) :=
        R.dn_mono (le_min (hn.pow_nonneg _) (hn.pow_nonneg _))
      rwa [R.dn_zero] at this
  · have h'' : ¬ (n % 2 = 0 ∧ X.containsNum 0) := by
      rintro ⟨h1, h2⟩
      exact h' ⟨h1, containsNum_iff.mpr (h.mem (containsNum_iff.mp h2))⟩
    rw [if_neg h', if_neg h'']
    have hc : ¬ (n % 2 = 0 ∧ (X'.a ≤ 0 ∧ 0 ≤ X'.b)) := by
      intro hh; exact h' ⟨hh.1, containsNum_iff.mpr hh.2⟩
    have l := fun x (hx : x ∈ X') => (pow_mem_corners hx hc).1
    have u := fun x (hx : x ∈ X') => (pow_mem_corners hx hc).2
    exact ⟨R.dn_mono (le_min (l _ ha) (l _ hb)), R.up_mono (max_le (u _ ha) (u _ hb))⟩

/-- C12 (inclusion isotonicity): if evaluation succeeds on wide arguments then it succeeds on any
narrower arguments, and the narrower result lies inside the wider one; for every rounding. -/
theorem C12_eval_isotone (R : Rnd K) (e : Expr K) (X X' : ℕ → Iv K) (Z' : Iv K)
    (hX : ∀ i, Ordinary (X i)) (hX' : ∀ i, Ordinary (X' i))
    (hs : ∀ i, Sub (X i) (X' i)) (h : e.evalIv R X' = .ok Z') :
    ∃ Z, e.evalIv R X = .ok Z ∧ Sub Z Z' := by
  suffices H : ∃ Z, e.evalIv R X = .ok Z ∧ Ordinary Z ∧ Ordinary Z' ∧ Inside Z Z' by
    obtain ⟨Z, h1, _, _, h2⟩ := H
    exact ⟨Z, h1, fun s hs => h2.mem hs⟩
  have hs' : ∀ i, Inside (X i) (X' i) := fun i =>
    ⟨(hs i _ (memL (hX i))).1, (hs i _ (memR (hX i))).2⟩
  induction e generalizing Z' with
  | var i => cases h; exact ⟨X i, rfl, hX i, hX' i, hs' i⟩
  | neg e ih =>
    obtain ⟨x', hx', hz⟩ := bind_ok h
    cases hz
    obtain ⟨x, hx, ho, ho', hi⟩ := ih x' hx'
    exact ⟨x.neg, by simp [Expr.evalIv, hx, bind, Except.bind, pure, Except.pure],
      ⟨ho.1, neg_le_neg ho.2⟩, ⟨ho'.1, neg_le_neg ho'.2⟩, neg_le_neg hi.2, neg_le_neg hi.1⟩
  | add e f ihe ihf =>
    obtain ⟨x', hx', h⟩ := bind_ok h
    obtain ⟨y', hy', hz⟩ := bind_ok h
    cases hz
    obtain ⟨x, hx, ho, ho', hi⟩ := ihe x' hx'
    obtain ⟨y, hy, po, po', pi⟩ := ihf y' hy'
    refine ⟨x.add R y, by simp [Expr.evalIv, hx, hy, bind, Except.bind, pure, Except.pure],
      (C01_add_sub_ordinary R x y ho po).1, (C01_add_sub_ordinary R x' y' ho' po').1, ?_⟩
    simp only [Inside, Iv.add, ho.1, ho'.1]
    exact ⟨R.dn_mono (add_le_add hi.1 pi.1), R.up_mono (add_le_add hi.2 pi.2)⟩
  | sub e f ihe ihf =>
    obtain ⟨x', hx', h⟩ := bind_ok h
    obtain ⟨y', hy', hz⟩ := bind_ok h
    cases hz
    obtain ⟨x, hx, ho, ho', hi⟩ := ihe x' hx'
    obtain ⟨y, hy, po, po', pi⟩ := ihf y' hy'
    refine ⟨x.sub R y, by simp [Expr.evalIv, hx, hy, bind, Except.bind, pure, Except.pure],
      (C01_add_sub_ordinary R x y ho po).2, (C01_add_sub_ordinary R x' y' ho' po').2, ?_⟩
    simp only [Inside, Iv.sub, ho.1, ho'.1]
    exact ⟨R.dn_mono (sub_le_sub hi.1 pi.2), R.up_mono (sub_le_sub hi.2 pi.1)⟩
  | mul e f ihe ihf =>
    obtain ⟨x', hx', h⟩ := bind_ok h
    obtain ⟨y', hy', hz⟩ := bind_ok h
    cases hz
    obtain ⟨x, hx, ho, ho', hi⟩ := ihe x' hx'
    obtain ⟨y, hy, po, po', pi⟩ := ihf y' hy'
    exact ⟨x.mul R y, by simp [Expr.evalIv, hx, hy, bind, Except.bind, pure, Except.pure],
      C02_mul_ordinary R x y ho po, C02_mul_ordinary R x' y' ho' po', mul_inside R ho ho' po po' hi pi⟩
  | div e f ihe ihf =>
    obtain ⟨x', hx', h⟩ := bind_ok h
    obtain ⟨y', hy', hz⟩ := bind_ok h
    obtain ⟨x, hx, ho, ho', hi⟩ := ihe x' hx'
    obtain ⟨y, hy, po, po', pi⟩ := ihf y' hy'
    have h0' : ¬ (0 : K) ∈ y' := fun h0 => by
      rw [((C03_div_error_iff R x' y' ho' po').1).mpr h0] at hz; cases hz
    have h0 : ¬ (0 : K) ∈ y := fun h0 => h0' (pi.mem h0)
    have oZ : Ordinary (Iv.divCC R x y) := by
      obtain ⟨W, hW, oW⟩ := (C03_div_error_iff R x y ho po).2.mpr h0
      rw [div_eq_divCC R ho po h0] at hW; cases hW; exact oW
    have oZ' : Ordinary Z' := by
      obtain ⟨W, hW, oW⟩ := (C03_div_error_iff R x' y' ho' po').2.mpr h0'
      rw [hz] at hW; cases hW; exact oW
    rw [div_eq_divCC R ho' po' h0'] at hz
    cases hz
    exact ⟨Iv.divCC R x y, by simp [Expr.evalIv, hx, hy, bind, Except.bind, div_eq_divCC R ho po h0],
      oZ, oZ', divCC_inside R ho po po' hi pi h0'⟩
  | pow e n ih =>
    obtain ⟨x', hx', hz⟩ := bind_ok h
    cases hz
    obtain ⟨x, hx, ho, ho', hi⟩ := ih x' hx'
    exact ⟨x.powNat R n, by simp [Expr.evalIv, hx, bind, Except.bind, pure, Except.pure],
      (C06_pow_encloses R x n ho).2, (C06_pow_encloses R x' n ho').2, pow_inside R n ho ho' hi⟩
  | numAdd c e ih =>
    obtain ⟨x', hx', hz⟩ := bind_ok h
    cases hz
    obtain ⟨x, hx, ho, ho', hi⟩ := ih x' hx'
    have l := (C05_radd_rsub_enclose R c x).1 (c + x.a) ⟨x.a, (memL ho), rfl⟩
    have l' := (C05_radd_rsub_enclose R c x').1 (c + x'.a) ⟨x'.a, (memL ho'), rfl⟩
    refine ⟨Iv.radd R c x, by simp [Expr.evalIv, hx, bind, Except.bind, pure, Except.pure],
      ⟨ho.1, l.1.trans l.2⟩, ⟨ho'.1, l'.1.trans l'.2⟩, ?_⟩
    exact ⟨R.dn_mono (by linarith [hi.1]), R.up_mono (by linarith [hi.2])⟩
  | numSub c e ih =>
    obtain ⟨x', hx', hz⟩ := bind_ok h
    cases hz
    obtain ⟨x, hx, ho, ho', hi⟩ := ih x' hx'
    have l := (C05_radd_rsub_enclose R c x).2.1 (c - x.a) ⟨x.a, (memL ho), rfl⟩
    have l' := (C05_radd_rsub_enclose R c x').2.1 (c - x'.a) ⟨x'.a, (memL ho'), rfl⟩
    refine ⟨Iv.rsub R c x, by simp [Expr.evalIv, hx, bind, Except.bind, pure, Except.pure],
      ⟨ho.1, l.1.trans l.2⟩, ⟨ho'.1, l'.1.trans l'.2⟩, ?_⟩
    exact ⟨R.dn_mono (by linarith [hi.2]), R.up_mono (by linarith [hi.1])⟩
  | numMul c e ih =>
    obtain ⟨x', hx', hz⟩ := bind_ok h
    cases hz
    obtain ⟨x, hx, ho, ho', hi⟩ := ih x' hx'
    exact ⟨Iv.rmul R c x, by simp [Expr.evalIv, hx, bind, Except.bind, pure, Except.pure],
      (C05_rmul_encloses R c x ho).2.2, (C05_rmul_encloses R c x' ho').2.2, rmul_inside R c ho ho' hi⟩
  | numDiv c e ih =>
    obtain ⟨x', hx', hz⟩ := bind_ok h
    obtain ⟨x, hx, ho, ho', hi⟩ := ih x' hx'
    have h0' : ¬ (0 : K) ∈ x' := (C05_rdiv_error_iff R c x' ho').2.mp ⟨_, hz⟩
    have h0 : ¬ (0 : K) ∈ x := fun h0 => h0' (hi.mem h0)
    obtain ⟨Z, hZ⟩ := (C05_rdiv_error_iff R c x ho).2.mpr h0
    refine ⟨Z, by simp [Expr.evalIv, hx, bind, Except.bind, hZ],
      rdiv_ok_ordinary R c x Z ho hZ, rdiv_ok_ordinary R c x' Z' ho' hz, ?_⟩
    rw [rdiv_ok_form hz, rdiv_ok_form hZ]
    have m1 := inv_mem_of (not_mem_zero_cases ho.2 h0) (memL ho)
    have m2 := inv_mem_of (not_mem_zero_cases ho'.2 h0') (memL ho')
    refine rmul_inside R c ⟨ho.1, ?_⟩ ⟨ho'.1, ?_⟩ ⟨?_, ?_⟩
    · exact (R.dn_le _).trans (m1.1.trans (R.le_up _))
    · exact (R.dn_le _).trans (m2.1.trans (R.le_up _))
    · exact R.dn_mono (inv_mem_of (not_mem_zero_cases ho'.2 h0') (hi.mem (memR ho))).1
    · exact R.up_mono (inv_mem_of (not_mem_zero_cases ho'.2 h0') (hi.mem (memL ho))).2
  | subNum e c ih =>
    obtain ⟨x', hx', hz⟩ := bind_ok h
    cases hz
    obtain ⟨x, hx, ho, ho', hi⟩ := ih x' hx'
    have l := (C05_radd_rsub_enclose R c x).2.2.2.2 (x.a - c) ⟨x.a, (memL ho), rfl⟩
    have l' := (C05_radd_rsub_enclose R c x').2.2.2.2 (x'.a - c) ⟨x'.a, (memL ho'), rfl⟩
    refine ⟨Iv.subNum R x c, by simp [Expr.evalIv, hx, bind, Except.bind, pure, Except.pure],
      ⟨ho.1, l.1.trans l.2⟩, ⟨ho'.1, l'.1.trans l'.2⟩, ?_⟩
    exact ⟨R.dn_mono (by linarith [hi.1]), R.up_mono (by linarith [hi.2])⟩
  | divNum e c ih =>
    obtain ⟨x', hx', hz⟩ := bind_ok h
    obtain ⟨x, hx, ho, ho', hi⟩ := ih x' hx'
    unfold Iv.divNum at hz
    split_ifs at hz with hc
    cases hz
    exact ⟨Iv.rmul R (R.nr (1 / c)) x, by simp [Expr.evalIv, hx, bind, Except.bind, Iv.divNum, hc],
      (C05_rmul_encloses R _ x ho).2.2, (C05_rmul_encloses R _ x' ho').2.2, rmul_inside R _ ho ho' hi⟩

end IntvalPy
