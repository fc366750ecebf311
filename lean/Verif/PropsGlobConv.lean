import Verif.PropsNonlinear
import Verif.PropsPPSSharp
import Verif.PropsUtils
import Mathlib.Algebra.BigOperators.Group.List.Basic
import Mathlib.Order.Nat
import Mathlib.Tactic.Linarith

/-!
# The bisection search `globopt` comes to an end (C127)

/repo/intvalpy/nonlinear/globopt.py:19-44.  C41 says what a returned pair means, whenever the loop stopped.  Here it
is shown that the loop stops because of the tolerance, after a number of passes that is known in advance.
-/

set_option autoImplicit false
set_option linter.unusedSectionVars false

namespace IntvalPy
open Spec

variable {K : Type*} [Field K] [LinearOrder K] [IsStrictOrderedRing K]

/-- Bisection shrinks the computed width of every component wider than `δ` by the factor `q`. -/
def HalfOK {n : ℕ} (R : Rnd K) (G : K → Prop) (x0 : Fin n → Iv K) (δ q : K) : Prop :=
  ∀ (i : Fin n) (X : Iv K), Ordinary X → Sub X (x0 i) → G X.a → G X.b → δ < X.wid R →
    (⟨.classical, X.a, X.mid R⟩ : Iv K).wid R ≤ q * X.wid R ∧ (⟨.classical, X.mid R, X.b⟩ : Iv K).wid R ≤ q * X.wid R

/-- The number of bisections after which a width `w` is at most `δ`. -/
noncomputable def depth (δ q w : K) : ℕ := sInf {d : ℕ | w * q ^ d ≤ δ}

theorem depth_spec {δ q w : K} (h : ∃ d : ℕ, w * q ^ d ≤ δ) : w * q ^ depth δ q w ≤ δ :=
  Nat.sInf_mem (s := {d : ℕ | w * q ^ d ≤ δ}) h

theorem depth_le {δ q w : K} {d : ℕ} (h : w * q ^ d ≤ δ) : depth δ q w ≤ d := Nat.sInf_le h

theorem depth_pos {δ q w : K} (h : ∃ d : ℕ, w * q ^ d ≤ δ) (hw : δ < w) : 0 < depth δ q w := by
  rcases Nat.eq_zero_or_pos (depth δ q w) with h0 | h0
  · have := depth_spec h
    rw [h0, pow_zero, mul_one] at this
    exact absurd this (not_le.mpr hw)
  · exact h0

theorem depth_half {δ q w w' : K} (hq : 0 ≤ q) (h : ∃ d : ℕ, w * q ^ d ≤ δ) (hw : δ < w) (h' : w' ≤ q * w) :
    w' * q ^ (depth δ q w - 1) ≤ δ := by
  have h1 := depth_spec h
  have h2 := depth_pos h hw
  obtain ⟨k, hk⟩ : ∃ k, depth δ q w = k + 1 := ⟨depth δ q w - 1, by omega⟩
  rw [hk] at h1 ⊢
  rw [Nat.add_sub_cancel]
  rw [pow_succ] at h1
  calc w' * q ^ k ≤ q * w * q ^ k := mul_le_mul_of_nonneg_right h' (pow_nonneg hq k)
    _ = w * (q ^ k * q) := by ring
    _ ≤ δ := h1

/-- The number of boxes the bisection of `Y` can still produce. -/
noncomputable def pot {n : ℕ} (R : Rnd K) (δ q : K) (Y : Fin n → Iv K) : ℕ :=
  2 ^ (∑ i, depth δ q ((Y i).wid R)) - 1

/-- Every width becomes small by bisection. -/
def Fine {n : ℕ} (R : Rnd K) (δ q : K) (Y : Fin n → Iv K) : Prop := ∀ i, ∃ d : ℕ, (Y i).wid R * q ^ d ≤ δ

theorem fine_update {n : ℕ} {R : Rnd K} {δ q : K} {Y : Fin n → Iv K} (hq : 0 ≤ q) (hY : Fine R δ q Y) (l : Fin n)
    (X : Iv K) (hl : δ < (Y l).wid R) (hX : X.wid R ≤ q * (Y l).wid R) : Fine R δ q (Function.update Y l X) := by
  intro i
  by_cases hi : i = l
  · subst hi
    rw [Function.update_self]
    exact ⟨_, depth_half hq (hY i) hl hX⟩
  · rw [Function.update_of_ne hi]
    exact hY i

theorem pot_update {n : ℕ} {R : Rnd K} {δ q : K} {Y : Fin n → Iv K} (hq : 0 ≤ q) (hY : Fine R δ q Y) (l : Fin n)
    (X : Iv K) (hl : δ < (Y l).wid R) (hX : X.wid R ≤ q * (Y l).wid R) :
    2 * pot R δ q (Function.update Y l X) + 1 ≤ pot R δ q Y := by
  have h1 : ∑ i, depth δ q ((Function.update Y l X i).wid R) + 1 ≤ ∑ i, depth δ q ((Y i).wid R) := by
    have : ∑ i, depth δ q ((Function.update Y l X i).wid R) < ∑ i, depth δ q ((Y i).wid R) := by
      refine Finset.sum_lt_sum (fun i _ => ?_) ⟨l, Finset.mem_univ _, ?_⟩
      · by_cases hi : i = l
        · subst hi
          rw [Function.update_self]
          exact (depth_le (depth_half hq (hY i) hl hX)).trans (Nat.sub_le _ _)
        · rw [Function.update_of_ne hi]
      · rw [Function.update_self]
        have := depth_le (depth_half hq (hY l) hl hX)
        have := depth_pos (hY l) hl
        omega
    omega
  have h2 := Nat.pow_le_pow_right (show 0 < 2 by norm_num) h1
  rw [pow_succ] at h2
  have h3 : 0 < 2 ^ ∑ i, depth δ q ((Function.update Y l X i).wid R) := Nat.pow_pos (by norm_num)
  unfold pot
  omega

/-- The potential of a list of boxes. -/
noncomputable def potL {n : ℕ} (R : Rnd K) (δ q : K) (L : List ((Fin n → Iv K) × K)) : ℕ :=
  (L.map fun c => pot R δ q c.1).sum

theorem potL_insert {n : ℕ} (R : Rnd K) (δ q : K) (L : List ((Fin n → Iv K) × K)) (c : (Fin n → Iv K) × K)
    (hs : (L.map Prod.snd).Pairwise (· ≤ ·)) : potL R δ q (globInsert L c) = pot R δ q c.1 + potL R δ q L := by
  have h1 := (bisectLeft_spec (L.map Prod.snd) c.2 hs).1
  rw [List.length_map] at h1
  unfold potL globInsert
  rw [((List.perm_insertIdx c L h1).map _).sum_eq, List.map_cons, List.sum_cons]

/-- What the search needs from the function: it has a value on every box it is asked for, -/
def TotalOn {n : ℕ} (G : K → Prop) (func : (Fin n → Iv K) → Except Err (Iv K)) (x0 : Fin n → Iv K) : Prop :=
  ∀ Y, OrdBox Y → (∀ i, Sub (Y i) (x0 i)) → (∀ i, G (Y i).a ∧ G (Y i).b) → ∃ F, func Y = .ok F

/-- and the value is narrower than `tol` on boxes with all widths at most `δ`. -/
def NarrowOn {n : ℕ} (R : Rnd K) (func : (Fin n → Iv K) → Except Err (Iv K)) (x0 : Fin n → Iv K) (δ tol : K) : Prop :=
  ∀ Y F, OrdBox Y → (∀ i, Sub (Y i) (x0 i)) → (∀ i, (Y i).wid R ≤ δ) → func Y = .ok F → F.wid R < tol

theorem globStep_pot {n : ℕ} (R : Rnd K) (G : K → Prop) (hG : MidOK R G) (func : (Fin n → Iv K) → Except Err (Iv K))
    (x0 : Fin n → Iv K) (δ q : K) (hq : 0 ≤ q) (hn : 0 < n) (hH : HalfOK R G x0 δ q) (hT : TotalOn G func x0)
    (Y : Fin n → Iv K) (y : K) (rest : List ((Fin n → Iv K) × K))
    (hI : GlobInv G func x0 ((Y, y) :: rest)) (hF : ∀ c ∈ (Y, y) :: rest, Fine R δ q c.1)
    (hw : ∃ i, δ < (Y i).wid R) :
    ∃ L', globStep R func ((Y, y) :: rest) Y = .ok L' ∧ L' ≠ [] ∧ (∀ c ∈ L', Fine R δ q c.1) ∧
      potL R δ q L' + 1 ≤ potL R δ q ((Y, y) :: rest) := by
  obtain ⟨oY, sY, gY, -⟩ := hI.good (Y, y) (by simp)
  cases hl : argmaxOn (fun i => (Y i).wid R) (List.finRange n) with
  | none =>
    have := argmaxOn_none _ _ hl
    rw [List.finRange_eq_nil_iff] at this
    omega
  | some l =>
    obtain ⟨i0, hi0⟩ := hw
    have hwl : δ < (Y l).wid R := lt_of_lt_of_le hi0 ((argmaxOn_spec _ _ _ hl).2 i0 (List.mem_finRange _))
    have hmid := hG.mid_mem (Y l) (gY l).1 (gY l).2 (oY l).2
    rw [Iv.mem_def] at hmid
    have e1 : mkIv (Y l).a ((Y l).mid R) = ⟨.classical, (Y l).a, (Y l).mid R⟩ := by rw [mkIv, if_pos hmid.1]
    have e2 : mkIv ((Y l).mid R) (Y l).b = ⟨.classical, (Y l).mid R, (Y l).b⟩ := by rw [mkIv, if_pos hmid.2]
    have gm : G ((Y l).mid R) := hG.nr_mem _
    obtain ⟨w1, w2⟩ := hH l (Y l) (oY l) (sY l) (gY l).1 (gY l).2 hwl
    obtain ⟨F1, hF1⟩ := hT (Function.update Y l ⟨.classical, (Y l).a, (Y l).mid R⟩) (fun i => by
        by_cases hi : i = l
        · subst hi; rw [Function.update_self]; exact ⟨rfl, hmid.1⟩
        · rw [Function.update_of_ne hi]; exact oY i) (fun i => by
        by_cases hi : i = l
        · subst hi; rw [Function.update_self]; exact fun t ht => sY i t ⟨ht.1, le_trans ht.2 hmid.2⟩
        · rw [Function.update_of_ne hi]; exact sY i) (fun i => by
        by_cases hi : i = l
        · subst hi; rw [Function.update_self]; exact ⟨(gY i).1, gm⟩
        · rw [Function.update_of_ne hi]; exact gY i)
    obtain ⟨F2, hF2⟩ := hT (Function.update Y l ⟨.classical, (Y l).mid R, (Y l).b⟩) (fun i => by
        by_cases hi : i = l
        · subst hi; rw [Function.update_self]; exact ⟨rfl, hmid.2⟩
        · rw [Function.update_of_ne hi]; exact oY i) (fun i => by
        by_cases hi : i = l
        · subst hi; rw [Function.update_self]; exact fun t ht => sY i t ⟨le_trans hmid.1 ht.1, ht.2⟩
        · rw [Function.update_of_ne hi]; exact sY i) (fun i => by
        by_cases hi : i = l
        · subst hi; rw [Function.update_self]; exact ⟨gm, (gY i).2⟩
        · rw [Function.update_of_ne hi]; exact gY i)
    have hs := hI.sorted
    simp only [List.map_cons, List.pairwise_cons] at hs
    have hfY : Fine R δ q Y := hF (Y, y) (by simp)
    refine ⟨globInsert (globInsert rest (Function.update Y l ⟨.classical, (Y l).a, (Y l).mid R⟩, F1.a))
      (Function.update Y l ⟨.classical, (Y l).mid R, (Y l).b⟩, F2.a), ?_, ?_, ?_, ?_⟩
    · unfold globStep
      rw [hl]
      dsimp only
      rw [e1, e2, hF1]
      dsimp only
      rw [hF2]
    · obtain ⟨s1, m1⟩ := globInsert_spec rest (Function.update Y l ⟨.classical, (Y l).a, (Y l).mid R⟩, F1.a) hs.2
      exact List.ne_nil_of_mem (((globInsert_spec _ (Function.update Y l ⟨.classical, (Y l).mid R, (Y l).b⟩, F2.a) s1).2 _).mpr
        (.inl rfl))
    · obtain ⟨s1, m1⟩ := globInsert_spec rest (Function.update Y l ⟨.classical, (Y l).a, (Y l).mid R⟩, F1.a) hs.2
      intro c hc
      rw [(globInsert_spec _ (Function.update Y l ⟨.classical, (Y l).mid R, (Y l).b⟩, F2.a) s1).2, m1] at hc
      rcases hc with rfl | rfl | hc
      · exact fine_update hq hfY l _ hwl w2
      · exact fine_update hq hfY l _ hwl w1
      · exact hF c (by simp [hc])
    · obtain ⟨s1, m1⟩ := globInsert_spec rest (Function.update Y l ⟨.classical, (Y l).a, (Y l).mid R⟩, F1.a) hs.2
      rw [potL_insert _ _ _ _ _ s1, potL_insert _ _ _ _ _ hs.2]
      have p1 := pot_update hq hfY l _ hwl w1
      have p2 := pot_update hq hfY l _ hwl w2
      have : potL R δ q ((Y, y) :: rest) = pot R δ q Y + potL R δ q rest := by
        unfold potL; rw [List.map_cons, List.sum_cons]
      rw [this]
      dsimp only
      omega

theorem globLoop_ends {n : ℕ} (R : Rnd K) (G : K → Prop) (hG : MidOK R G) (func : (Fin n → Iv K) → Except Err (Iv K))
    (x0 : Fin n → Iv K) (δ q tol : K) (hq : 0 ≤ q) (hn : 0 < n) (hH : HalfOK R G x0 δ q) (hT : TotalOn G func x0)
    (hN : NarrowOn R func x0 δ tol) : ∀ (fuel : ℕ) (L : List ((Fin n → Iv K) × K)), GlobInv G func x0 L → L ≠ [] →
      (∀ c ∈ L, Fine R δ q c.1) → potL R δ q L ≤ fuel →
      ∃ Y y rest F, globLoop R func tol fuel L = .ok ((Y, y) :: rest) ∧ func Y = .ok F ∧ F.wid R < tol := by
  intro fuel
  induction fuel with
  | zero =>
    intro L hI hL hF hp
    obtain ⟨⟨Y, y⟩, rest, rfl⟩ := List.exists_cons_of_ne_nil hL
    obtain ⟨oY, sY, gY, F, hFY, -⟩ := hI.good (Y, y) (by simp)
    refine ⟨Y, y, rest, F, rfl, hFY, hN Y F oY sY (fun i => ?_) hFY⟩
    by_contra hi
    push Not at hi
    have h1 : pot R δ q Y = 0 := by
      have : potL R δ q ((Y, y) :: rest) = pot R δ q Y + potL R δ q rest := by
        unfold potL; rw [List.map_cons, List.sum_cons]
      omega
    have h2 : 0 < depth δ q ((Y i).wid R) := depth_pos (hF (Y, y) (by simp) i) hi
    have h3 : depth δ q ((Y i).wid R) ≤ ∑ i, depth δ q ((Y i).wid R) :=
      Finset.single_le_sum (f := fun i => depth δ q ((Y i).wid R)) (fun _ _ => Nat.zero_le _) (Finset.mem_univ i)
    have h4 := Nat.pow_le_pow_right (show 0 < 2 by norm_num) (show 1 ≤ ∑ i, depth δ q ((Y i).wid R) by omega)
    unfold pot at h1
    omega
  | succ fuel ih =>
    intro L hI hL hF hp
    obtain ⟨⟨Y, y⟩, rest, rfl⟩ := List.exists_cons_of_ne_nil hL
    obtain ⟨oY, sY, gY, F, hFY, -⟩ := hI.good (Y, y) (by simp)
    dsimp only at oY sY gY hFY
    unfold globLoop
    dsimp only
    rw [hFY]
    dsimp only
    by_cases ht : tol ≤ F.wid R
    · rw [if_pos ht]
      have hw : ∃ i, δ < (Y i).wid R := by
        by_contra hno
        push Not at hno
        exact absurd (hN Y F oY sY hno hFY) (not_lt.mpr ht)
      obtain ⟨L', h1, h2, h3, h4⟩ := globStep_pot R G hG func x0 δ q hq hn hH hT Y y rest hI hF hw
      rw [h1]
      dsimp only
      exact ih L' (globStep_inv R G hG func x0 Y y rest L' hI h1) h2 h3 (by omega)
    · rw [if_neg ht]
      exact ⟨Y, y, rest, F, rfl, hFY, not_le.mp ht⟩

/-- **C127**: if the interval extension is narrower than `tol` on boxes with widths at most `δ`, and each component of `x0` is
at most `δ` wide after `d i` bisections, then `globopt` stops because of the tolerance within `2 ^ (∑ d i) - 1`
passes: whenever `maxiter` allows that many, it returns a box whose value is narrower than `tol`. -/
theorem C127_globopt_ends {n : ℕ} (R : Rnd K) (G : K → Prop) (hG : MidOK R G) (func : (Fin n → Iv K) → Except Err (Iv K))
    (x0 : Fin n → Iv K) (h0 : OrdBox x0) (g0 : ∀ i, G (x0 i).a ∧ G (x0 i).b) (δ q tol : K) (hq : 0 ≤ q) (hn : 0 < n)
    (hH : HalfOK R G x0 δ q) (hT : TotalOn G func x0) (hN : NarrowOn R func x0 δ tol) (d : Fin n → ℕ)
    (hd : ∀ i, (x0 i).wid R * q ^ d i ≤ δ) (maxiter : ℤ) (hm : (2 : ℤ) ^ (∑ i, d i) ≤ maxiter + 2) :
    ∃ Y v, globopt R func x0 tol maxiter = .ok (Y, v) ∧ v.wid R < tol := by
  obtain ⟨F, hF⟩ := hT x0 h0 (fun i t ht => ht) g0
  have hI : GlobInv G func x0 [(x0, F.a)] := ⟨by simp, fun c hc => by
        obtain rfl := List.mem_singleton.mp hc
        exact ⟨h0, fun i t ht => ht, g0, F, hF, rfl⟩, fun x hx => ⟨_, List.mem_singleton.mpr rfl, hx⟩⟩
  have hp : potL R δ q [(x0, F.a)] ≤ (maxiter + 1).toNat := by
    have h1 : ∑ i, depth δ q ((x0 i).wid R) ≤ ∑ i, d i := Finset.sum_le_sum fun i _ => depth_le (hd i)
    have h2 := Nat.pow_le_pow_right (show 0 < 2 by norm_num) h1
    have h3 : ((2 ^ ∑ i, d i : ℕ) : ℤ) ≤ maxiter + 2 := by exact_mod_cast hm
    simp only [potL, List.map_cons, List.map_nil, List.sum_cons, List.sum_nil, pot]
    omega
  obtain ⟨Y, y, rest, FY, h1, h2, h3⟩ := globLoop_ends R G hG func x0 δ q tol hq hn hH hT hN _ _ hI (by simp)
    (fun c hc i => by
      obtain rfl := List.mem_singleton.mp hc
      exact ⟨d i, hd i⟩) hp
  refine ⟨Y, FY, ?_, h3⟩
  unfold globopt
  rw [hF]
  dsimp only
  rw [h1]
  dsimp only
  rw [h2]
  rfl

/-- In exact arithmetic bisection halves. -/
theorem halfOK_exact {n : ℕ} (x0 : Fin n → Iv K) (δ : K) : HalfOK Rnd.exact (fun _ => True) x0 δ (1 / 2) := by
  intro i X hX _ _ _ _
  simp only [Iv.wid, Iv.mid, Rnd.exact_nr, id]
  constructor <;> exact le_of_eq (by ring)

/-- In binary64 bisection shrinks the widths by nearly one half, down to widths of `2 ^ -40` of the numbers
involved. -/
theorem halfOK_b64 {n : ℕ} (x0 : Fin n → Iv ℚ) (M δ : ℚ) (hM0 : (2 : ℚ) ^ (-1015 : ℤ) ≤ M)
    (hM : ∀ i, |(x0 i).a| ≤ M ∧ |(x0 i).b| ≤ M) (hδ : M / 2 ^ 40 ≤ δ) :
    HalfOK Rnd.b64 IsF x0 δ (1 / 2 + 1 / 1024) := by
  intro i X hX hs _ _ hw
  have hη : (2 : ℚ) ^ (-1075 : ℤ) ≤ M / 2 ^ 60 := by
    have : (2 : ℚ) ^ (-1075 : ℤ) = 2 ^ (-1015 : ℤ) / 2 ^ 60 := by
      rw [show (-1075 : ℤ) = -1015 - (60 : ℕ) by norm_num, zpow_sub₀ (by norm_num), zpow_natCast]
    rw [this]
    exact div_le_div_of_nonneg_right hM0 (by norm_num)
  have hη0 : (0 : ℚ) ≤ 2 ^ (-1075 : ℤ) := (zpow_pos (by norm_num) _).le
  have hab : X.a ≤ X.b := hX.2
  have ha := Iv.mem_def.mp (hs X.a ⟨le_refl _, hab⟩)
  have hb := Iv.mem_def.mp (hs X.b ⟨hab, le_refl _⟩)
  have hM1 := abs_le.mp (hM i).1
  have hM2 := abs_le.mp (hM i).2
  have err : ∀ t : ℚ, |nearTo t - t| ≤ 1 / 2 ^ 53 * |t| + 2 ^ (-1075 : ℤ) := fun t => by
    have := nearTo_err t
    rwa [show (2 : ℚ) ^ (-53 : ℤ) = 1 / 2 ^ 53 by norm_num] at this
  change δ < nearTo (X.b - X.a) at hw
  change nearTo (nearTo (1 / 2 * nearTo (X.b + X.a)) - X.a) ≤ _ * nearTo (X.b - X.a) ∧
    nearTo (X.b - nearTo (1 / 2 * nearTo (X.b + X.a))) ≤ _ * nearTo (X.b - X.a)
  generalize hη' : (2 : ℚ) ^ (-1075 : ℤ) = η at *
  have e1 := err (X.b + X.a)
  have a1 : |X.b + X.a| ≤ 2 * M := by rw [abs_le]; constructor <;> linarith [ha.1, hb.2]
  set s := nearTo (X.b + X.a)
  have e1' := abs_le.mp e1
  have e2 := err (1 / 2 * s)
  have a2 : |1 / 2 * s| ≤ 2 * M := by
    have := (abs_le.mp a1)
    rw [abs_le]; constructor <;> linarith
  set m := nearTo (1 / 2 * s)
  have e2' := abs_le.mp e2
  have e0 := abs_le.mp (err (X.b - X.a))
  rw [abs_of_nonneg (sub_nonneg.mpr hab)] at e0
  set wd := nearTo (X.b - X.a)
  have e3 := abs_le.mp (err (m - X.a))
  have e4 := abs_le.mp (err (X.b - m))
  have a3 : |m - X.a| ≤ (X.b - X.a) / 2 + 3 / 2 ^ 53 * (2 * M) := by
    rw [abs_le]; constructor <;> linarith
  have a4 : |X.b - m| ≤ (X.b - X.a) / 2 + 3 / 2 ^ 53 * (2 * M) := by
    rw [abs_le]; constructor <;> linarith
  have a3' := (le_abs_self (m - X.a)).trans a3
  have a4' := (le_abs_self (X.b - m)).trans a4
  constructor <;> linarith

/-- The hypotheses of C127 for `x²` on `[-1, 3]` with `tol = 1/10`: the value is at most six times as wide as
the box. -/
theorem exSq_narrow : NarrowOn Rnd.exact exSq (fun _ => ⟨.classical, -1, 3⟩) (1 / 100) (1 / 10) := by
  intro Y F oY sY hw hF
  cases hF
  have hY := oY 0
  have h1 := Iv.mem_def.mp (sY 0 (Y 0).a ⟨le_refl _, hY.2⟩)
  have h2 := Iv.mem_def.mp (sY 0 (Y 0).b ⟨hY.2, le_refl _⟩)
  have h3 := hw 0
  have hle := hY.2
  dsimp only at h1 h2
  generalize Y 0 = X at *
  obtain ⟨cls, a, b⟩ := X
  obtain ⟨hc, -⟩ := hY
  cases hc
  simp only [Iv.wid, Rnd.exact_nr, id] at h3
  dsimp only at h1 h2 hle
  simp only [Iv.powNat, Iv.wid, Rnd.exact_nr, Rnd.exact_dn, Rnd.exact_up, id]
  have hsq : b ^ 2 - a ^ 2 ≤ 6 / 100 ∧ a ^ 2 - b ^ 2 ≤ 6 / 100 := by constructor <;> nlinarith
  split_ifs with h0
  · have hz : a ≤ 0 ∧ 0 ≤ b := by simpa [Iv.containsNum] using h0.2
    have q1 : a ^ 2 ≤ 6 / 100 := by nlinarith
    have q2 : b ^ 2 ≤ 6 / 100 := by nlinarith
    have := max_le q1 q2
    linarith
  · rcases le_total (a ^ 2) (b ^ 2) with h | h
    · rw [max_eq_right h, min_eq_left h]; linarith [hsq.1]
    · rw [max_eq_left h, min_eq_right h]; linarith [hsq.2]

/-- `globopt(x**2, [-1, 3], tol=0.1)` ends by its tolerance with the default limit of 2000 passes (at most 511 are
needed). -/
example : ∃ Y v, globopt Rnd.exact exSq (fun _ => ⟨.classical, -1, 3⟩) (1 / 10) 2000 = .ok (Y, v) ∧
    v.wid Rnd.exact < 1 / 10 :=
  C127_globopt_ends Rnd.exact (fun _ => True) midOK_exact exSq _ (fun _ => ⟨rfl, by norm_num⟩) (fun _ => ⟨trivial, trivial⟩)
    (1 / 100) (1 / 2) (1 / 10) (by norm_num) (by norm_num) (halfOK_exact _ _) (fun Y _ _ _ => ⟨_, rfl⟩) exSq_narrow
    (fun _ => 9) (fun _ => by norm_num [Iv.wid]) 2000 (by norm_num)

/-- `halfOK_b64` on `[-1, 3]` with widths down to `1/100`. -/
example : HalfOK Rnd.b64 IsF (fun _ : Fin 1 => (⟨.classical, -1, 3⟩ : Iv ℚ)) (1 / 100) (1 / 2 + 1 / 1024) := by
  refine halfOK_b64 _ 3 _ ?_ (fun _ => by norm_num [abs_of_nonneg]) (by norm_num)
  exact (zpow_le_one_of_nonpos₀ (by norm_num) (by norm_num)).trans (by norm_num)

end IntvalPy
