import Verif.ModelDistF
import Verif.PropsTolRound
import Verif.PropsObjects

/-!
# C137: `dist` in double arithmetic
-/

set_option autoImplicit false
set_option linter.unusedSectionVars false

namespace IntvalPy
open Spec
open FIv

/-! ## Rounding to nearest is monotone -/

theorem nearTo_mono {x y : ℚ} (h : x ≤ y) : (nearTo x : ℚ) ≤ nearTo y := by
  by_contra hc
  push Not at hc
  have h1 := add_nearTo_le (nearTo_isF y) hc
  have h2 : -nearTo x < nearTo (-y) := by rw [nearTo_neg]; linarith
  have h3 := add_nearTo_le (nearTo_isF x).neg h2
  rw [nearTo_neg] at h3
  have h4 : x = y := by linarith
  rw [h4] at hc
  exact lt_irrefl _ hc

theorem nearTo_abs (x : ℚ) : |(nearTo x : ℚ)| = nearTo |x| := by
  rcases le_total 0 x with h | h
  · rw [abs_of_nonneg h, abs_of_nonneg]
    have := nearTo_mono h
    rwa [nearTo_of_isF isF_zero] at this
  · rw [abs_of_nonpos h, nearTo_neg, abs_of_nonpos]
    have := nearTo_mono h
    rwa [nearTo_of_isF isF_zero] at this

/-- Sums of doubles, and hence differences, are multiples of the subnormal spacing: their rounding has a relative
error, without the additional half of the smallest double. -/
theorem nearTo_grid_rel {x : ℚ} (hx : ∃ j : ℤ, x = j * 2 ^ (-1074 : ℤ)) : |nearTo x - x| ≤ 2 ^ (-53 : ℤ) * |x| := by
  by_cases h0 : x = 0
  · subst h0
    rw [nearTo_of_isF isF_zero, sub_zero, abs_zero, mul_zero]
  have hpos := abs_pos.mpr h0
  by_cases hE : Int.log 2 |x| - 52 ≤ -1074
  · have hu : ulp x = 2 ^ (-1074 : ℤ) := by unfold ulp ulpExp; rw [max_eq_left hE]
    have hn : nearTo x = x := by
      obtain ⟨j, hj⟩ := hx
      have hp : (0 : ℚ) < 2 ^ (-1074 : ℤ) := zpow_pos (by norm_num) _
      have : x / ulp x = (j : ℚ) := by rw [hu, hj, mul_div_cancel_right₀ _ hp.ne']
      unfold nearTo
      rw [this, nearInt_intCast, hu, ← hj]
    rw [hn, sub_self, abs_zero]
    positivity
  · push Not at hE
    have hl : (2 : ℚ) ^ Int.log 2 |x| ≤ |x| := by
      have := Int.zpow_log_le_self (b := 2) (r := |x|) (by norm_num) hpos
      exact_mod_cast this
    have hu : ulp x = 2 ^ (-52 : ℤ) * (2 : ℚ) ^ (Int.log 2 |x|) := by
      unfold ulp ulpExp
      rw [max_eq_right hE.le, ← zpow_add₀ (by norm_num)]
      congr 1
      ring
    have h1 := nearTo_half_ulp x
    have e1 : (2 : ℚ) ^ (-53 : ℤ) = 1 / 2 * 2 ^ (-52 : ℤ) := by norm_num
    have hw : (0 : ℚ) < 2 ^ (-52 : ℤ) := zpow_pos (by norm_num) _
    rw [e1]
    rw [hu] at h1
    generalize (2 : ℚ) ^ (-52 : ℤ) = w at *
    nlinarith

theorem isF_grid {x : ℚ} (h : IsF x) : ∃ j : ℤ, x = j * 2 ^ (-1074 : ℤ) := by
  obtain ⟨m, e, -, he, rfl⟩ := h
  refine ⟨m * 2 ^ (e + 1074).toNat, ?_⟩
  push_cast
  rw [mul_assoc, ← zpow_natCast, ← zpow_add₀ (by norm_num), Int.toNat_of_nonneg (by omega)]
  congr 2
  ring

theorem sub_grid {x y : ℚ} (hx : IsF x) (hy : IsF y) : ∃ j : ℤ, x - y = j * 2 ^ (-1074 : ℤ) := by
  obtain ⟨i, hi⟩ := isF_grid hx
  obtain ⟨j, hj⟩ := isF_grid hy
  exact ⟨i - j, by rw [hi, hj]; push_cast; ring⟩

/-! ## The distance of two intervals -/

theorem maxFin_pos : (0 : ℚ) < maxFin := by unfold maxFin; norm_num

theorem round_abs (t : ℚ) : (round .nearest t).pyAbs = round .nearest |t| := by
  have e := nearTo_abs t
  simp only [round]
  have hm : (0 : ℚ) < maxFin := maxFin_pos
  rw [← e]
  by_cases h1 : maxFin < (nearTo t : ℚ)
  · rw [if_pos h1, if_pos (h1.trans_le (le_abs_self _))]; rfl
  · rw [if_neg h1]
    by_cases h2 : (nearTo t : ℚ) < -maxFin
    · rw [if_pos h2, if_pos (by have := neg_le_abs (nearTo t : ℚ); linarith)]; rfl
    · rw [if_neg h2, if_neg, if_neg]; · rfl
      · have := abs_nonneg (nearTo t : ℚ); linarith
      · push Not at h1 h2
        exact not_lt.mpr (abs_le.mpr ⟨h2, h1⟩)

theorem round_npMax_le {p q : ℚ} (h : p ≤ q) :
    (round .nearest p).npMaximum (round .nearest q) = round .nearest q ∧
    (round .nearest q).npMaximum (round .nearest p) = round .nearest q := by
  have hm := nearTo_mono h
  have hp : (0 : ℚ) < maxFin := maxFin_pos
  simp only [round]
  split_ifs <;> simp only [Dbl.npMaximum, Dbl.lt, decide_eq_true_eq, and_self, if_true, if_false, Bool.false_eq_true] <;>
    first
      | (exfalso; linarith)
      | (constructor <;> split_ifs <;> first | rfl | (congr 1; linarith))

theorem round_npMax (p q : ℚ) :
    (round .nearest p).npMaximum (round .nearest q) = round .nearest (max p q) := by
  rcases le_total p q with h | h
  · rw [max_eq_right h]; exact (round_npMax_le h).1
  · rw [max_eq_left h]; exact (round_npMax_le h).2

theorem dbl_dist (x y z t : ℚ) :
    Num.npMaximum (Num.dbl (Dbl.sub .nearest (.fin x) (.fin z))).pyAbs (Num.dbl (Dbl.sub .nearest (.fin y) (.fin t))).pyAbs =
      .ok (.dbl (round .nearest (max |x - z| |y - t|))) := by
  show Except.ok (Num.dbl ((Dbl.sub .nearest (.fin x) (.fin z)).pyAbs.npMaximum (Dbl.sub .nearest (.fin y) (.fin t)).pyAbs)) = _
  simp only [Dbl.sub, Dbl.neg, Dbl.add, round_abs, round_npMax, sub_eq_add_neg]

/-- The interval with float endpoints `p` and `q`. -/
def FloatEnds (X : FIv) (p q : ℚ) : Prop := X.a = .dbl (.fin p) ∧ X.b = .dbl (.fin q)

/-- For intervals with finite float endpoints `dist` is the exact distance rounded to nearest once: no error
accumulates over the subtraction, the modulus and the maximum.  Overflow gives `inf`. -/
theorem C137_rounded (X Y : FIv) (x y z t : ℚ) (hX : FloatEnds X x y) (hY : FloatEnds Y z t) :
    FIv.dist X Y .nearest = (.ok (.dbl (round .nearest (max |x - z| |y - t|))), .nearest) := by
  obtain ⟨c, a, b⟩ := X
  obtain ⟨c', a', b'⟩ := Y
  obtain ⟨rfl, rfl⟩ := hX
  obtain ⟨rfl, rfl⟩ := hY
  show (Num.npMaximum (Num.dbl (Dbl.sub .nearest (.fin x) (.fin z))).pyAbs
    (Num.dbl (Dbl.sub .nearest (.fin y) (.fin t))).pyAbs, Mode.nearest) = _
  rw [dbl_dist]

/-- Integer endpoints of any size: the exact distance, in any rounding mode. -/
theorem C137_integers (X Y : FIv) (x y z t : ℤ) (s : Mode) (hX : X.a = .int x ∧ X.b = .int y)
    (hY : Y.a = .int z ∧ Y.b = .int t) :
    FIv.dist X Y s = (.ok (.int (max |x - z| |y - t|)), s) := by
  obtain ⟨c, a, b⟩ := X
  obtain ⟨c', a', b'⟩ := Y
  obtain ⟨rfl, rfl⟩ := hX
  obtain ⟨rfl, rfl⟩ := hY
  rfl

/-- Two doubles whose difference is NaN. -/
def NoDifference (d e : Dbl) : Prop := d = .nan ∨ e = .nan ∨ (d = .pinf ∧ e = .pinf) ∨ (d = .ninf ∧ e = .ninf)

/-- A double that is infinite. -/
def Infinite (d : Dbl) : Prop := d = .pinf ∨ d = .ninf

theorem sub_nan_iff (m : Mode) (d e : Dbl) : (Dbl.sub m d e).pyAbs = .nan ↔ NoDifference d e := by
  have hr : ∀ t, (round m t).pyAbs ≠ .nan := by
    intro t
    cases m <;> simp only [round] <;> split_ifs <;> simp [Dbl.pyAbs]
  cases d <;> cases e
  case fin.fin p q => simp [Dbl.sub, Dbl.neg, Dbl.add, NoDifference, hr]
  all_goals simp [Dbl.sub, Dbl.neg, Dbl.add, NoDifference, Dbl.pyAbs]

theorem npMaximum_nan_iff (d e : Dbl) : d.npMaximum e = .nan ↔ d = .nan ∨ e = .nan := by
  cases d <;> cases e <;> simp [Dbl.npMaximum, Dbl.lt] <;> split_ifs <;> simp

theorem pyAbs_ne_ninf (d : Dbl) : d.pyAbs ≠ .ninf := by cases d <;> simp [Dbl.pyAbs]

theorem npMaximum_pinf_iff {d e : Dbl} (hd : d ≠ .nan) (he : e ≠ .nan) :
    d.npMaximum e = .pinf ↔ d = .pinf ∨ e = .pinf := by
  cases d <;> cases e <;> simp [Dbl.npMaximum, Dbl.lt] at hd he ⊢ <;> split_ifs <;> simp

/-- The distance in any rounding mode for float endpoints of every kind: it is NaN exactly if an endpoint is NaN or two
corresponding endpoints are the same infinity - so `dist(X, X)` of an unbounded interval is NaN, not zero -, and it is
`inf` if otherwise some endpoint is infinite.  Nothing is raised. -/
theorem C137_nonfinite (X Y : FIv) (x y z t : Dbl) (s : Mode) (hX : X.a = .dbl x ∧ X.b = .dbl y)
    (hY : Y.a = .dbl z ∧ Y.b = .dbl t) :
    ∃ d, FIv.dist X Y s = (.ok (.dbl d), s) ∧ (d = .nan ↔ NoDifference x z ∨ NoDifference y t) ∧
      (d ≠ .nan → Infinite x ∨ Infinite y ∨ Infinite z ∨ Infinite t → d = .pinf) := by
  obtain ⟨c, a, b⟩ := X
  obtain ⟨c', a', b'⟩ := Y
  obtain ⟨rfl, rfl⟩ := hX
  obtain ⟨rfl, rfl⟩ := hY
  refine ⟨(Dbl.sub s x z).pyAbs.npMaximum (Dbl.sub s y t).pyAbs, rfl, ?_, ?_⟩
  · rw [npMaximum_nan_iff, sub_nan_iff, sub_nan_iff]
  · intro hd hi
    rw [Ne, npMaximum_nan_iff, not_or] at hd
    rw [npMaximum_pinf_iff hd.1 hd.2]
    obtain ⟨h1, h2⟩ := hd
    have key : ∀ d e : Dbl, (Dbl.sub s d e).pyAbs ≠ .nan → Infinite d ∨ Infinite e → (Dbl.sub s d e).pyAbs = .pinf := by
      intro d e h hi
      cases d <;> cases e <;> simp_all [Dbl.sub, Dbl.neg, Dbl.add, Dbl.pyAbs, Infinite]
    rcases hi with h | h | h | h
    · exact .inl (key _ _ h1 (.inl h))
    · exact .inr (key _ _ h2 (.inl h))
    · exact .inl (key _ _ h1 (.inr h))
    · exact .inr (key _ _ h2 (.inr h))

/-- Two intervals of doubles: the computed distance is zero exactly for the same endpoints, does not depend on the order
of the operands, and if it is finite it differs from the exact distance by at most one part in `2 ^ 53`. -/
theorem C137_metric (X Y : FIv) (x y z t : ℚ) (hX : FloatEnds X x y) (hY : FloatEnds Y z t)
    (hx : IsF x) (hy : IsF y) (hz : IsF z) (ht : IsF t) :
    ∃ d, FIv.dist X Y .nearest = (.ok (.dbl d), .nearest) ∧ FIv.dist Y X .nearest = (.ok (.dbl d), .nearest) ∧
      (d = .fin 0 ↔ x = z ∧ y = t) ∧ (max |x - z| |y - t| ≤ maxFin → d ≠ .pinf) ∧
      ∀ q, d = .fin q → 0 ≤ q ∧ |q - (max |x - z| |y - t|)| ≤ 2 ^ (-53 : ℤ) * max |x - z| |y - t| := by
  have hg : ∃ j : ℤ, max |x - z| |y - t| = j * 2 ^ (-1074 : ℤ) := by
    have habs : ∀ u : ℚ, (∃ j : ℤ, u = j * 2 ^ (-1074 : ℤ)) → ∃ j : ℤ, |u| = j * 2 ^ (-1074 : ℤ) := by
      rintro u ⟨j, rfl⟩
      refine ⟨|j|, ?_⟩
      rw [abs_mul, abs_of_pos (zpow_pos (by norm_num) _ : (0 : ℚ) < 2 ^ (-1074 : ℤ)), Int.cast_abs]
    rcases max_choice |x - z| |y - t| with h | h <;> rw [h]
    · exact habs _ (sub_grid hx hz)
    · exact habs _ (sub_grid hy ht)
  have h0 : 0 ≤ max |x - z| |y - t| := (abs_nonneg _).trans (le_max_left _ _)
  have hz0 : max |x - z| |y - t| = 0 ↔ x = z ∧ y = t := by
    constructor
    · intro h
      have h1 : |x - z| ≤ 0 := h ▸ le_max_left _ _
      have h2 : |y - t| ≤ 0 := h ▸ le_max_right _ _
      exact ⟨sub_eq_zero.mp (abs_nonpos_iff.mp h1), sub_eq_zero.mp (abs_nonpos_iff.mp h2)⟩
    · rintro ⟨rfl, rfl⟩
      simp
  refine ⟨_, C137_rounded X Y x y z t hX hY, ?_, ?_⟩
  · rw [C137_rounded Y X z t x y hY hX, abs_sub_comm z, abs_sub_comm t]
  rw [← hz0]
  generalize max |x - z| |y - t| = m at *
  have hr := nearTo_grid_rel hg
  have hn : (0 : ℚ) ≤ nearTo m := by
    have := nearTo_mono h0
    rwa [nearTo_of_isF isF_zero] at this
  have hM := maxFin_pos
  rw [abs_of_nonneg h0] at hr
  refine ⟨?_, ?_, ?_⟩
  · constructor
    · intro h
      have h1 : (nearTo m : ℚ) = 0 := by
        simp only [round] at h
        split_ifs at h
        injection h
      rw [h1, zero_sub, abs_neg, abs_of_nonneg h0] at hr
      have : (2 : ℚ) ^ (-53 : ℤ) < 1 := by norm_num
      generalize (2 : ℚ) ^ (-53 : ℤ) = w at *
      by_contra hne
      have : 0 < m := lt_of_le_of_ne h0 (Ne.symm hne)
      nlinarith
    · rintro rfl
      rw [round_near (by rw [abs_zero]; exact hM.le), nearTo_of_isF isF_zero]
  · intro h
    rw [round_near (by rwa [abs_of_nonneg h0])]
    simp
  · intro q h
    have h1 : (nearTo m : ℚ) = q := by
      simp only [round] at h
      split_ifs at h
      injection h
    rw [← h1]
    exact ⟨hn, hr⟩

/-! ## Vectors -/

/-- Two intervals with finite float endpoints and the corresponding exact intervals. -/
def FloatPair (p : FIv × FIv) (q : Iv ℚ × Iv ℚ) : Prop := FloatEnds p.1 q.1.a q.1.b ∧ FloatEnds p.2 q.2.a q.2.b

theorem foldl_dist {ps : List (FIv × FIv)} {qs : List (Iv ℚ × Iv ℚ)} (h : List.Forall₂ FloatPair ps qs) (m : ℚ) :
    (ps.foldlM (fun acc q => do
        let d ← FIv.dist q.1 q.2
        M.op fun _ => Num.npMaximum acc d) (Num.dbl (round .nearest m)) : M Num) .nearest =
      (.ok (.dbl (round .nearest ((List.zipWith cheb (qs.map Prod.fst) (qs.map Prod.snd)).foldl max m))), .nearest) := by
  induction h generalizing m with
  | nil => rfl
  | @cons p q ps qs hpq _ ih =>
      have hd := C137_rounded p.1 p.2 _ _ _ _ hpq.1 hpq.2
      have hstep : (do
          let d ← FIv.dist p.1 p.2
          M.op fun _ => Num.npMaximum (Num.dbl (round .nearest m)) d : M Num) .nearest =
          (.ok (.dbl (round .nearest (max m (cheb q.1 q.2)))), .nearest) := by
        rw [run_bind, hd]
        show (Except.ok (Num.dbl ((round .nearest m).npMaximum (round .nearest _))), Mode.nearest) = _
        rw [round_npMax]
        rfl
      rw [List.foldlM_cons, run_bind, hstep]
      exact ih _

/-- For interval vectors with finite float endpoints `dist` is the exact distance rounded to nearest once; empty vectors
raise `ValueError` as in exact arithmetic. -/
theorem C137_vector {ps : List (FIv × FIv)} {qs : List (Iv ℚ × Iv ℚ)} (h : List.Forall₂ FloatPair ps qs) :
    FIv.distVec ps .nearest =
      ((IntvalPy.distVec (qs.map Prod.fst) (qs.map Prod.snd)).map fun D => .dbl (round .nearest D), .nearest) := by
  cases h with
  | nil => rfl
  | cons hpq h =>
      have hd := C137_rounded _ _ _ _ _ _ hpq.1 hpq.2
      rw [FIv.distVec, run_bind, hd]
      exact foldl_dist h _

/-- A triangle inequality between computed distances fails: the two steps are rounded down, the whole way is not. -/
theorem C137_triangle_false : ∃ X Y Z : FIv, ∃ p q r : ℚ,
    FIv.dist X Y .nearest = (.ok (.dbl (.fin p)), .nearest) ∧ FIv.dist Y Z .nearest = (.ok (.dbl (.fin q)), .nearest) ∧
    FIv.dist X Z .nearest = (.ok (.dbl (.fin r)), .nearest) ∧ p + q < r := by
  refine ⟨⟨.classical, .dbl (.fin (2 ^ 53)), .dbl (.fin (2 ^ 53))⟩, ⟨.classical, .dbl (.fin (-1)), .dbl (.fin (-1))⟩,
    ⟨.classical, .dbl (.fin (-2)), .dbl (.fin (-2))⟩, 2 ^ 53, 1, 2 ^ 53 + 2, ?_, ?_, ?_, by norm_num⟩ <;>
    rw [C137_rounded _ _ _ _ _ _ ⟨rfl, rfl⟩ ⟨rfl, rfl⟩] <;> decide +kernel

/-- Nonvacuity: `[0.1, 1e300]` and `[0.3, 1e300]` with their binary values; the distance is the double next to `0.2`. -/
example : ∃ x z : ℚ, x = nearTo (1 / 10) ∧ z = nearTo (3 / 10) ∧
    FIv.dist ⟨.classical, .dbl (.fin x), .dbl (.fin (2 ^ 900))⟩ ⟨.classical, .dbl (.fin z), .dbl (.fin (2 ^ 900))⟩ .nearest =
      (.ok (.dbl (.fin (z - x))), .nearest) := by
  refine ⟨_, _, rfl, rfl, ?_⟩
  rw [C137_rounded _ _ _ _ _ _ ⟨rfl, rfl⟩ ⟨rfl, rfl⟩]
  decide +kernel

/-- Overflow: the distance of `[-DBL_MAX, 0]` and `[DBL_MAX, 0]` is `inf`. -/
example : FIv.dist ⟨.kaucher, .dbl (.fin maxFin), .dbl (.fin 0)⟩ ⟨.classical, .dbl (.fin (-maxFin)), .dbl (.fin 0)⟩ .nearest =
    (.ok (.dbl .pinf), .nearest) := by
  rw [C137_rounded _ _ _ _ _ _ ⟨rfl, rfl⟩ ⟨rfl, rfl⟩]
  decide +kernel

/-- `dist(X, X)` of the unbounded `X = [1, inf]` is NaN, the distance of `[1, inf]` and `[1, 2]` is `inf`. -/
example : FIv.dist ⟨.classical, .dbl (.fin 1), .dbl .pinf⟩ ⟨.classical, .dbl (.fin 1), .dbl .pinf⟩ .nearest =
      (.ok (.dbl .nan), .nearest) ∧
    FIv.dist ⟨.classical, .dbl (.fin 1), .dbl .pinf⟩ ⟨.classical, .dbl (.fin 1), .dbl (.fin 2)⟩ .up =
      (.ok (.dbl .pinf), .up) := by
  decide +kernel

/-- Vectors: `([0, 1], [2, 5])` and `([0, 3], [1, 4])`; the empty vector raises. -/
example : FIv.distVec [(⟨.classical, .dbl (.fin 0), .dbl (.fin 1)⟩, ⟨.classical, .dbl (.fin 0), .dbl (.fin 3)⟩),
      (⟨.classical, .dbl (.fin 2), .dbl (.fin 5)⟩, ⟨.classical, .dbl (.fin 1), .dbl (.fin 4)⟩)] .nearest =
      (.ok (.dbl (.fin 2)), .nearest) ∧ FIv.distVec [] .nearest = (.error .valueError, .nearest) := by
  decide +kernel

/-- A mixed pair `[1, 2.5]` and `[0, 1]` of integers and floats. -/
example : FIv.dist ⟨.classical, .int 1, .dbl (.fin (5 / 2))⟩ ⟨.classical, .int 0, .int 1⟩ .nearest =
      (.ok (.dbl (.fin (3 / 2))), .nearest) := by
  decide +kernel

end IntvalPy
