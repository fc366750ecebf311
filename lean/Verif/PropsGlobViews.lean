import Verif.ModelGlobViews
import Verif.PropsGlobConv
import Verif.PropsPSSViews
import Verif.PropsDistF

/-!
# `globopt` on boxes with integer endpoints (C142)

The component to bisect is read from an array that may be cast to integers.  The enclosure of the minimum does not depend on the
choice; the number of passes at most doubles, and it can double.
-/

set_option autoImplicit false
set_option linter.unusedSectionVars false

namespace IntvalPy
open Spec

/-! ## The view of the widths -/

/-- Integers of modulus at most `2^53` are not rounded. -/
def KeepsInts (R : Rnd ℚ) : Prop := ∀ z : ℤ, |z| ≤ 2 ^ 53 → R.nr (z : ℚ) = z

theorem keepsInts_exact : KeepsInts Rnd.exact := fun _ _ => rfl

theorem keepsInts_b64 : KeepsInts Rnd.b64 := fun _ h => nearTo_of_isF (isF_int h)

/-- The exact intervals of a box of objects. -/
def valBox {n : ℕ} (Y : Fin n → FIv) : Fin n → Iv ℚ := fun i => ivRat (Y i)

theorem widNum_small {R : Rnd ℚ} (hR : KeepsInts R) (X : FIv) (ha : SmallEnd X.a) (hb : SmallEnd X.b) :
    numRat (widNum R X) = (ivRat X).wid R ∧ (widNum R X).IntsLe (2 ^ 53) := by
  obtain ⟨c, a, b⟩ := X
  cases a with
  | int p =>
    cases b with
    | int q =>
      have h1 : |p| ≤ 2 ^ 52 := ha
      have h2 : |q| ≤ 2 ^ 52 := hb
      rw [abs_le] at h1 h2
      have h3 : |q - p| ≤ 2 ^ 53 := by rw [abs_le]; constructor <;> omega
      refine ⟨?_, h3⟩
      have := hR _ h3
      simp only [widNum, numRat, ivRat, Iv.wid]
      rw [← Int.cast_sub, this]
    | dbl d => exact ⟨rfl, trivial⟩
  | dbl d => cases b <;> exact ⟨rfl, trivial⟩

/-- Both endpoints of the interval are integers. -/
def BothInt (X : FIv) : Prop := ∃ p q : ℤ, X.a = .int p ∧ X.b = .int q

theorem widNum_dbl {R : Rnd ℚ} (X : FIv) (h : ¬ BothInt X) : ∃ d, widNum R X = .dbl d := by
  obtain ⟨c, a, b⟩ := X
  cases a with
  | int p =>
    cases b with
    | int q => exact absurd ⟨p, q, rfl, rfl⟩ h
    | dbl d => exact ⟨_, rfl⟩
  | dbl d => cases b <;> exact ⟨_, rfl⟩

theorem widView_float {n : ℕ} (hn : 0 < n) {R : Rnd ℚ} (hR : KeepsInts R) (Y : Fin n → FIv)
    (hs : ∀ i, SmallEnd (Y i).a ∧ SmallEnd (Y i).b) (h0 : ¬ BothInt (Y ⟨0, hn⟩)) :
    widView R Y = .ok fun j => (valBox Y j).wid R := by
  rw [widView_right R Y]
  · congr 1
    funext j
    exact (widNum_small hR _ (hs j).1 (hs j).2).1
  · rw [C63_view_iff]
    · left
      obtain ⟨d, hd⟩ := widNum_dbl (R := R) _ h0
      refine ⟨d, ?_⟩
      rw [List.head?_eq_getElem?, List.getElem?_ofFn, dif_pos hn, hd]
    · intro he
      have := congrArg List.length he
      simp at this
      omega
    · intro x hx
      obtain ⟨j, rfl⟩ := List.mem_ofFn.mp hx
      exact (widNum_small hR _ (hs j).1 (hs j).2).2

theorem mapM_int64 (xs : List Num) (h : ∀ x ∈ xs, toInt64 x = .ok (.int (truncQ (numRat x)))) :
    xs.mapM toInt64 = .ok (xs.map fun x => .int (truncQ (numRat x))) := by
  induction xs with
  | nil => rfl
  | cons x t ih =>
    rw [List.mapM_cons, h x (by simp), ih fun y hy => h y (by simp [hy])]
    rfl

theorem truncQ_int (z : ℤ) : truncQ (z : ℚ) = z := by
  unfold truncQ
  split_ifs <;> simp

/-- If both endpoints of the first component are integers, the widths are truncated. -/
theorem widView_int {n : ℕ} (hn : 0 < n) {R : Rnd ℚ} (hR : KeepsInts R) (Y : Fin n → FIv)
    (hs : ∀ i, SmallEnd (Y i).a ∧ SmallEnd (Y i).b) (h0 : BothInt (Y ⟨0, hn⟩))
    (hw : ∀ i, 0 ≤ (valBox Y i).wid R ∧ (valBox Y i).wid R < 2 ^ 63) :
    widView R Y = .ok fun j => ((truncQ ((valBox Y j).wid R) : ℤ) : ℚ) := by
  have hcast : ∀ x ∈ List.ofFn fun j => widNum R (Y j), toInt64 x = .ok (.int (truncQ (numRat x))) := by
    intro x hx
    obtain ⟨j, rfl⟩ := List.mem_ofFn.mp hx
    obtain ⟨h1, h2⟩ := widNum_small hR _ (hs j).1 (hs j).2
    have hwj : (0 : ℚ) ≤ numRat (widNum R (Y j)) ∧ numRat (widNum R (Y j)) < 2 ^ 63 := by rw [h1]; exact hw j
    cases hx : widNum R (Y j) with
    | int z =>
      rw [hx] at h2
      have h2 : |z| ≤ 2 ^ 53 := h2
      rw [abs_le] at h2
      simp only [numRat, truncQ_int, toInt64]
      rw [if_pos (by omega)]
    | dbl d =>
      have hd : d = .fin ((valBox Y j).wid R) := by
        have : ∀ X : FIv, widNum R X = .dbl d → d = .fin ((ivRat X).wid R) := by
          rintro ⟨c, a, b⟩ h
          cases a <;> cases b <;> simp only [widNum] at h <;> first | (cases h; done) | (cases h; rfl)
        exact this _ hx
      rw [hx, hd] at hwj
      subst hd
      simp only [numRat] at hwj ⊢
      have e : truncQ ((valBox Y j).wid R) = ⌊(valBox Y j).wid R⌋ := if_pos hwj.1
      have f1 : 0 ≤ ⌊(valBox Y j).wid R⌋ := Int.floor_nonneg.mpr hwj.1
      have f2 : ⌊(valBox Y j).wid R⌋ < 2 ^ 63 := by
        rw [Int.floor_lt]
        push_cast
        exact hwj.2
      simp only [toInt64]
      rw [if_pos (by rw [e]; omega)]
  obtain ⟨p, q, hp, hq⟩ := h0
  have hhead : (List.ofFn fun j => widNum R (Y j)).head? = some (.int (q - p)) := by
    rw [List.head?_eq_getElem?, List.getElem?_ofFn, dif_pos hn]
    have : widNum R (Y ⟨0, hn⟩) = .int (q - p) := by unfold widNum; rw [hp, hq]
    exact congrArg some this
  have hvec : npVectorizeNum (List.ofFn fun j => widNum R (Y j)) =
      .ok ((List.ofFn fun j => widNum R (Y j)).map fun x => .int (truncQ (numRat x))) := by
    have hz : -(2 ^ 63) ≤ q - p ∧ q - p < 2 ^ 63 := by
      have h1 := (hs ⟨0, hn⟩).1
      have h2 := (hs ⟨0, hn⟩).2
      rw [hp] at h1
      rw [hq] at h2
      have h1 : |p| ≤ 2 ^ 52 := h1
      have h2 : |q| ≤ 2 ^ 52 := h2
      rw [abs_le] at h1 h2
      constructor <;> omega
    rw [← mapM_int64 _ hcast]
    cases hl : List.ofFn fun j => widNum R (Y j) with
    | nil => rw [hl] at hhead; cases hhead
    | cons x t =>
      rw [hl, List.head?_cons, Option.some.injEq] at hhead
      subst hhead
      simp only [npVectorizeNum]
      rw [if_pos hz]
  unfold widView
  rw [hvec]
  dsimp only
  congr 1
  funext j
  rw [List.getD_eq_getElem?_getD, List.getElem?_map, List.getElem?_ofFn, dif_pos j.isLt, Option.map_some, Option.getD_some]
  change ((truncQ (numRat (widNum R (Y j))) : ℤ) : ℚ) = _
  rw [(widNum_small hR _ (hs j).1 (hs j).2).1]
  rfl

/-- `np.argmax` gives the first place or a strictly greater value. -/
theorem argmaxOn_first {α : Type*} (f : α → ℚ) (a : α) (t : List α) (k : α) (h : argmaxOn f (a :: t) = some k) :
    k = a ∨ f a < f k := by
  simp only [argmaxOn, Option.some.injEq] at h
  induction t generalizing a with
  | nil => exact .inl h.symm
  | cons c t ih =>
    simp only [List.foldl_cons] at h
    split_ifs at h with hc
    · rcases ih _ h with rfl | h1
      · exact .inr hc
      · exact .inr (hc.trans h1)
    · exact ih _ h

/-! ## The boxes -/

section
variable {n : ℕ} (R : Rnd ℚ) (G : ℚ → Prop) (func : (Fin n → FIv) → Except Err (Iv ℚ)) (x0 : Fin n → Iv ℚ)

/-- The boxes that can occur: ordinary, inside `x0`, with endpoints in `G`, the integers among them of modulus at most `2^52`. -/
def BoxOK (Y : Fin n → FIv) : Prop :=
  OrdBox (valBox Y) ∧ (∀ i, Sub (valBox Y i) (x0 i)) ∧ (∀ i, G (valBox Y i).a ∧ G (valBox Y i).b) ∧
    ∀ i, SmallEnd (Y i).a ∧ SmallEnd (Y i).b

/-- The two halves of a box. -/
def halfL (Y : Fin n → FIv) (l : Fin n) : Fin n → FIv := Function.update Y l (mkFIv (Y l).a (midNum R (Y l)))
/-- See `halfL`. -/
def halfR (Y : Fin n → FIv) (l : Fin n) : Fin n → FIv := Function.update Y l (mkFIv (midNum R (Y l)) (Y l).b)

variable {R G x0} in
theorem half_val (hG : MidOK R G) {Y : Fin n → FIv} (hY : BoxOK G x0 Y) (l : Fin n) :
    (valBox Y l).mid R ∈ valBox Y l ∧
    valBox (halfL R Y l) = Function.update (valBox Y) l ⟨.classical, (valBox Y l).a, (valBox Y l).mid R⟩ ∧
    valBox (halfR R Y l) = Function.update (valBox Y) l ⟨.classical, (valBox Y l).mid R, (valBox Y l).b⟩ := by
  obtain ⟨oY, -, gY, -⟩ := hY
  have hmid := hG.mid_mem (valBox Y l) (gY l).1 (gY l).2 (oY l).2
  refine ⟨hmid, funext fun i => ?_, funext fun i => ?_⟩ <;> rw [Iv.mem_def] at hmid
  · by_cases hi : i = l
    · subst hi
      simp only [valBox, halfL, Function.update_self, mkFIv_rat] at hmid ⊢
      change mkIv (ivRat (Y i)).a ((ivRat (Y i)).mid R) = _
      rw [mkIv, if_pos hmid.1]
    · simp only [valBox, halfL, Function.update_of_ne hi]
  · by_cases hi : i = l
    · subst hi
      simp only [valBox, halfR, Function.update_self, mkFIv_rat] at hmid ⊢
      change mkIv ((ivRat (Y i)).mid R) (ivRat (Y i)).b = _
      rw [mkIv, if_pos hmid.2]
    · simp only [valBox, halfR, Function.update_of_ne hi]

variable {R G x0} in
theorem half_ok (hG : MidOK R G) {Y : Fin n → FIv} (hY : BoxOK G x0 Y) (l : Fin n) :
    BoxOK G x0 (halfL R Y l) ∧ BoxOK G x0 (halfR R Y l) := by
  obtain ⟨hmid, e1, e2⟩ := half_val hG hY l
  obtain ⟨oY, sY, gY, zY⟩ := hY
  rw [Iv.mem_def] at hmid
  have gm : G ((valBox Y l).mid R) := hG.nr_mem _
  refine ⟨⟨?_, ?_, ?_, ?_⟩, ?_, ?_, ?_, ?_⟩
  all_goals intro i
  all_goals try rw [e1]
  all_goals try rw [e2]
  all_goals by_cases hi : i = l
  · subst hi; rw [Function.update_self]; exact ⟨rfl, hmid.1⟩
  · rw [Function.update_of_ne hi]; exact oY i
  · subst hi; rw [Function.update_self]; exact fun t ht => sY i t ⟨ht.1, le_trans ht.2 hmid.2⟩
  · rw [Function.update_of_ne hi]; exact sY i
  · subst hi; rw [Function.update_self]; exact ⟨(gY i).1, gm⟩
  · rw [Function.update_of_ne hi]; exact gY i
  · subst hi; rw [halfL, Function.update_self]; exact ⟨(zY i).1, trivial⟩
  · rw [halfL, Function.update_of_ne hi]; exact zY i
  · subst hi; rw [Function.update_self]; exact ⟨rfl, hmid.2⟩
  · rw [Function.update_of_ne hi]; exact oY i
  · subst hi; rw [Function.update_self]; exact fun t ht => sY i t ⟨le_trans hmid.1 ht.1, ht.2⟩
  · rw [Function.update_of_ne hi]; exact sY i
  · subst hi; rw [Function.update_self]; exact ⟨gm, (gY i).2⟩
  · rw [Function.update_of_ne hi]; exact gY i
  · subst hi; rw [halfR, Function.update_self]; exact ⟨trivial, (zY i).2⟩
  · rw [halfR, Function.update_of_ne hi]; exact zY i

theorem globInsertF_spec (L : List ((Fin n → FIv) × ℚ)) (c : (Fin n → FIv) × ℚ) (hs : (L.map Prod.snd).Pairwise (· ≤ ·)) :
    ((globInsertF L c).map Prod.snd).Pairwise (· ≤ ·) ∧ (globInsertF L c).Perm (c :: L) := by
  obtain ⟨h1, h2, h3⟩ := bisectLeft_spec (L.map Prod.snd) c.2 hs
  refine ⟨?_, ?_⟩
  · rw [globInsertF, map_insertIdx']
    exact pairwise_insertIdx _ _ _ hs h1 h2 h3
  · rw [List.length_map] at h1
    exact List.perm_insertIdx c L h1

/-- The invariant of the list of boxes. -/
structure GlobInvF (L : List ((Fin n → FIv) × ℚ)) : Prop where
  sorted : (L.map Prod.snd).Pairwise (· ≤ ·)
  good : ∀ c ∈ L, BoxOK G x0 c.1 ∧ ∃ F, func c.1 = .ok F ∧ c.2 = F.a
  cover : ∀ x, InVec x x0 → ∃ c ∈ L, InVec x (valBox c.1)

theorem globStepF_cases (Y : Fin n → FIv) (y : ℚ) (rest L' : List ((Fin n → FIv) × ℚ))
    (h : globStepF R func ((Y, y) :: rest) Y = .ok L') :
    ∃ w l F1 F2, widView R Y = .ok w ∧ argmaxOn w (List.finRange n) = some l ∧ func (halfL R Y l) = .ok F1 ∧
      func (halfR R Y l) = .ok F2 ∧
      L' = globInsertF (globInsertF rest (halfL R Y l, F1.a)) (halfR R Y l, F2.a) := by
  unfold globStepF at h
  split at h
  · cases h
  rename_i w hw
  split at h
  · cases h
  rename_i l hl
  dsimp only at h
  split at h
  · cases h
  rename_i F1 hF1
  split at h
  · cases h
  rename_i F2 hF2
  cases h
  exact ⟨w, l, F1, F2, hw, hl, hF1, hF2, rfl⟩

variable {R G func x0} in
theorem globStepF_inv (hG : MidOK R G) (Y : Fin n → FIv) (y : ℚ) (rest L' : List ((Fin n → FIv) × ℚ))
    (hI : GlobInvF G func x0 ((Y, y) :: rest)) (h : globStepF R func ((Y, y) :: rest) Y = .ok L') :
    GlobInvF G func x0 L' ∧ L' ≠ [] := by
  obtain ⟨w, l, F1, F2, -, -, hF1, hF2, rfl⟩ := globStepF_cases R func Y y rest L' h
  obtain ⟨hY, -⟩ := hI.good (Y, y) (by simp)
  dsimp only at hY
  obtain ⟨hmid, e1, e2⟩ := half_val hG hY l
  obtain ⟨k1, k2⟩ := half_ok hG hY l
  have hs := hI.sorted
  simp only [List.map_cons, List.pairwise_cons] at hs
  obtain ⟨s1, m1⟩ := globInsertF_spec rest (halfL R Y l, F1.a) hs.2
  obtain ⟨s2, m2⟩ := globInsertF_spec _ (halfR R Y l, F2.a) s1
  have hm : ∀ c, c ∈ globInsertF (globInsertF rest (halfL R Y l, F1.a)) (halfR R Y l, F2.a) ↔
      c = (halfR R Y l, F2.a) ∨ c = (halfL R Y l, F1.a) ∨ c ∈ rest := fun c => by
    rw [m2.mem_iff, List.mem_cons, m1.mem_iff, List.mem_cons]
  refine ⟨⟨s2, fun c hc => ?_, fun x hx => ?_⟩, List.ne_nil_of_mem ((hm _).mpr (.inl rfl))⟩
  · rcases (hm c).mp hc with rfl | rfl | hc
    · exact ⟨k2, F2, hF2, rfl⟩
    · exact ⟨k1, F1, hF1, rfl⟩
    · exact hI.good c (by simp [hc])
  · obtain ⟨c, hc, hxc⟩ := hI.cover x hx
    rcases List.mem_cons.mp hc with rfl | hc
    · rcases le_total (x l) ((valBox Y l).mid R) with h1 | h1
      · refine ⟨_, (hm _).mpr (.inr (.inl rfl)), fun i => ?_⟩
        dsimp only
        rw [e1, Function.update_apply]
        split_ifs with hi
        · subst hi; exact ⟨(hxc i).1, h1⟩
        · exact hxc i
      · refine ⟨_, (hm _).mpr (.inl rfl), fun i => ?_⟩
        dsimp only
        rw [e2, Function.update_apply]
        split_ifs with hi
        · subst hi; exact ⟨h1, (hxc i).2⟩
        · exact hxc i
    · exact ⟨c, (hm _).mpr (.inr (.inr hc)), hxc⟩

variable {R G func x0} in
theorem globLoopF_inv (hG : MidOK R G) (tol : ℚ) : ∀ (fuel : ℕ) (L L' : List ((Fin n → FIv) × ℚ)), GlobInvF G func x0 L →
    globLoopF R func tol fuel L = .ok L' → GlobInvF G func x0 L' := by
  intro fuel
  induction fuel with
  | zero => intro L L' hI h; cases h; exact hI
  | succ fuel ih =>
    intro L L' hI h
    unfold globLoopF at h
    split at h
    · cases h
    · rename_i Y y rest
      split at h
      · cases h
      · split_ifs at h
        · split at h
          · cases h
          · rename_i L'' hL''
            exact ih _ _ (globStepF_inv hG Y y rest L'' hI hL'').1 h
        · cases h; exact hI

/-- **C142**: the meaning of a returned pair does not depend on the kind of the endpoints.  If `globopt` returns `(Y, v)` for a box
of interval objects, then `Y` lies inside `x0` and `v` encloses the global minimum. -/
theorem C142_encloses (hG : MidOK R G) (f : (Fin n → ℚ) → ℚ) (X0 : Fin n → FIv) (h0 : BoxOK G (valBox X0) X0)
    (hf : ∀ Y F, BoxOK G (valBox X0) Y → func Y = .ok F → Ordinary F ∧ ∀ x, InVec x (valBox Y) → f x ∈ F)
    (tol : ℚ) (maxiter : ℤ) (Y : Fin n → FIv) (v : Iv ℚ) (h : globoptF R func X0 tol maxiter = .ok (Y, v)) :
    OrdBox (valBox Y) ∧ (∀ i, Sub (valBox Y i) (valBox X0 i)) ∧ (∀ x, InVec x (valBox X0) → v.a ≤ f x) ∧
      ∃ x, InVec x (valBox X0) ∧ f x ≤ v.b := by
  unfold globoptF at h
  split at h
  · cases h
  rename_i F hF
  split at h
  · cases h
  · cases h
  · rename_i Y' y rest hL
    have hI := globLoopF_inv (func := func) (x0 := valBox X0) hG tol _ [(X0, F.a)] _
      ⟨by simp, fun c hc => by
        obtain rfl := List.mem_singleton.mp hc
        exact ⟨h0, F, hF, rfl⟩, fun x hx => ⟨_, List.mem_singleton.mpr rfl, hx⟩⟩ hL
    obtain ⟨hY, FY, hFY, ey⟩ := hI.good _ List.mem_cons_self
    dsimp only at hY hFY ey
    rw [hFY] at h
    simp only [Except.map, Except.ok.injEq, Prod.mk.injEq] at h
    obtain ⟨rfl, rfl⟩ := h
    refine ⟨hY.1, hY.2.1, fun x hx => ?_, fun i => (valBox Y' i).a, fun i => hY.2.1 i _ ⟨le_refl _, (hY.1 i).2⟩, ?_⟩
    · obtain ⟨c, hc, hxc⟩ := hI.cover x hx
      obtain ⟨kc, Fc, hFc, ec⟩ := hI.good c hc
      have h1 := ((hf c.1 Fc kc hFc).2 x hxc).1
      have h2 : y ≤ c.2 := by
        have hs := hI.sorted
        simp only [List.map_cons, List.pairwise_cons] at hs
        rcases List.mem_cons.mp hc with rfl | hc
        · exact le_rfl
        · exact hs.1 _ (List.mem_map_of_mem hc)
      rw [← ey]
      rw [ec] at h2
      exact h2.trans h1
    · exact ((hf Y' FY hY hFY).2 _ fun i => ⟨le_refl _, (hY.1 i).2⟩).2

/-! ## The number of passes -/

open Classical in
/-- 1 for a box whose first component has two integer endpoints, else 0. -/
noncomputable def extra (hn : 0 < n) (Y : Fin n → FIv) : ℕ := if BothInt (Y ⟨0, hn⟩) then 1 else 0

/-- The number of passes a box can still cause. -/
noncomputable def potF (hn : 0 < n) (δ q : ℚ) (Y : Fin n → FIv) : ℕ :=
  2 ^ (∑ i, depth δ q ((valBox Y i).wid R) + extra hn Y) - 1

/-- See `potF`. -/
noncomputable def potLF (hn : 0 < n) (δ q : ℚ) (L : List ((Fin n → FIv) × ℚ)) : ℕ := (L.map fun c => potF R hn δ q c.1).sum

theorem half_not_int (Y : Fin n → FIv) (l : Fin n) : ¬ BothInt (halfL R Y l l) ∧ ¬ BothInt (halfR R Y l l) := by
  constructor
  · rintro ⟨p, q, -, h⟩
    rw [halfL, Function.update_self] at h
    cases h
  · rintro ⟨p, q, h, -⟩
    rw [halfR, Function.update_self] at h
    cases h

theorem extra_half (hn : 0 < n) (Y : Fin n → FIv) (l : Fin n) :
    extra hn (halfL R Y l) ≤ extra hn Y ∧ extra hn (halfR R Y l) ≤ extra hn Y ∧
      ((l = ⟨0, hn⟩) → extra hn (halfL R Y l) = 0 ∧ extra hn (halfR R Y l) = 0) := by
  have h0 : (l = ⟨0, hn⟩) → extra hn (halfL R Y l) = 0 ∧ extra hn (halfR R Y l) = 0 := by
    rintro rfl
    exact ⟨if_neg (half_not_int R Y _).1, if_neg (half_not_int R Y _).2⟩
  refine ⟨?_, ?_, h0⟩
  all_goals
    by_cases hl : l = ⟨0, hn⟩
    · simp [h0 hl]
    · have e : ∀ v, Function.update Y l v ⟨0, hn⟩ = Y ⟨0, hn⟩ := fun v => Function.update_of_ne (Ne.symm hl) v Y
      unfold extra
      first | rw [halfL, e] | rw [halfR, e]

theorem wid_point {R : Rnd ℚ} (c : Cls) (a : ℚ) : (⟨c, a, a⟩ : Iv ℚ).wid R = 0 := by
  unfold Iv.wid
  dsimp only
  rw [sub_self]
  exact le_antisymm ((R.nr_le_up 0).trans R.up_zero.le) (R.dn_zero.ge.trans (R.dn_le_nr 0))

variable {R G func x0} in
/-- A half of a box: the widths become fine and the exponent of the potential decreases. -/
theorem half_pot (hn : 0 < n) (hG : MidOK R G) (δ q : ℚ) (hq : 0 ≤ q) (hH : HalfOK R G x0 δ q) {Y : Fin n → FIv}
    (hY : BoxOK G x0 Y) (hf : Fine R δ q (valBox Y)) (l : Fin n)
    (hl : δ < (valBox Y l).wid R ∨ (l = ⟨0, hn⟩ ∧ BothInt (Y ⟨0, hn⟩) ∧ (valBox Y l).a = (valBox Y l).b ∧ 0 ≤ δ)) :
    (Fine R δ q (valBox (halfL R Y l)) ∧ Fine R δ q (valBox (halfR R Y l))) ∧
      2 * potF R hn δ q (halfL R Y l) + 1 ≤ potF R hn δ q Y ∧ 2 * potF R hn δ q (halfR R Y l) + 1 ≤ potF R hn δ q Y := by
  obtain ⟨hmid, e1, e2⟩ := half_val hG hY l
  obtain ⟨x1, x2, x3⟩ := extra_half R hn Y l
  have fin : ∀ D D' e e' : ℕ, D' + e' + 1 ≤ D + e → 2 * (2 ^ (D' + e') - 1) + 1 ≤ 2 ^ (D + e) - 1 := fun D D' e e' h => by
    have h2 := Nat.pow_le_pow_right (show 0 < 2 by norm_num) h
    rw [pow_succ] at h2
    have h3 : 0 < 2 ^ (D' + e') := Nat.pow_pos (by norm_num)
    omega
  rcases hl with hl | ⟨hl, hb, hp, hδ⟩
  · obtain ⟨w1, w2⟩ := hH l (valBox Y l) (hY.1 l) (hY.2.1 l) (hY.2.2.1 l).1 (hY.2.2.1 l).2 hl
    have dec : ∀ X : Iv ℚ, X.wid R ≤ q * (valBox Y l).wid R →
        ∑ i, depth δ q ((Function.update (valBox Y) l X i).wid R) + 1 ≤ ∑ i, depth δ q ((valBox Y i).wid R) := fun X hX => by
      have h1 := pot_update hq hf l X hl hX
      unfold pot at h1
      have h3 : 0 < 2 ^ ∑ i, depth δ q ((Function.update (valBox Y) l X i).wid R) := Nat.pow_pos (by norm_num)
      have h4 : 0 < 2 ^ ∑ i, depth δ q ((valBox Y i).wid R) := Nat.pow_pos (by norm_num)
      rw [← Nat.pow_le_pow_iff_right (show 1 < 2 by norm_num), pow_succ]
      omega
    refine ⟨⟨?_, ?_⟩, ?_, ?_⟩
    · rw [e1]; exact fine_update hq hf l _ hl w1
    · rw [e2]; exact fine_update hq hf l _ hl w2
    · unfold potF; rw [e1]; exact fin _ _ _ _ (by have := dec _ w1; omega)
    · unfold potF; rw [e2]; exact fin _ _ _ _ (by have := dec _ w2; omega)
  · have hm : (valBox Y l).mid R = (valBox Y l).a := by
      rw [Iv.mem_def] at hmid
      exact le_antisymm (hmid.2.trans hp.ge) hmid.1
    have hb2 : (valBox Y l).b = (valBox Y l).a := hp.symm
    have hw0 : (valBox Y l).wid R = 0 := by
      have := wid_point (R := R) (valBox Y l).cls (valBox Y l).a
      rw [← this]
      conv_rhs => rw [Iv.wid]
      rw [Iv.wid, hb2]
    have key : ∀ Z : Fin n → Iv ℚ, Z = Function.update (valBox Y) l ⟨.classical, (valBox Y l).a, (valBox Y l).a⟩ →
        ∀ i, (Z i).wid R = (valBox Y i).wid R := by
      rintro Z rfl i
      by_cases hi : i = l
      · subst hi
        rw [Function.update_self, wid_point, hw0]
      · rw [Function.update_of_ne hi]
    rw [hm] at e1 e2
    rw [hb2] at e2
    have k1 := key _ e1
    have k2 := key _ e2
    have ex : extra hn Y = 1 := if_pos hb
    obtain ⟨y1, y2⟩ := x3 hl
    refine ⟨⟨fun i => ?_, fun i => ?_⟩, ?_, ?_⟩
    · rw [k1 i]; exact hf i
    · rw [k2 i]; exact hf i
    · unfold potF; simp only [k1]; exact fin _ _ _ _ (by omega)
    · unfold potF; simp only [k2]; exact fin _ _ _ _ (by omega)

theorem wid_nonneg' {X : Iv ℚ} (h : X.a ≤ X.b) : 0 ≤ X.wid R := by
  unfold Iv.wid
  calc (0 : ℚ) = R.dn 0 := R.dn_zero.symm
    _ ≤ R.dn (X.b - X.a) := R.dn_mono (by linarith)
    _ ≤ R.nr (X.b - X.a) := R.dn_le_nr _

variable {R G func x0} in
/-- The component chosen for bisection is wider than `δ`, or it is the first one, a point with integer endpoints. -/
theorem pick_spec (hn : 0 < n) (hR : KeepsInts R) (hW : ∀ (i : Fin n) (X : Iv ℚ), Ordinary X → Sub X (x0 i) → X.wid R < 2 ^ 63)
    (δ : ℚ) (hδ0 : 0 ≤ δ) (hδ : δ < 1) {Y : Fin n → FIv} (hY : BoxOK G x0 Y) (hw : ∃ i, δ < (valBox Y i).wid R) :
    ∃ w l, widView R Y = .ok w ∧ argmaxOn w (List.finRange n) = some l ∧
      (δ < (valBox Y l).wid R ∨ (l = ⟨0, hn⟩ ∧ BothInt (Y ⟨0, hn⟩) ∧ (valBox Y l).a = (valBox Y l).b ∧ 0 ≤ δ)) := by
  have some_l : ∀ w : Fin n → ℚ, ∃ l, argmaxOn w (List.finRange n) = some l := fun w => by
    cases hl : argmaxOn w (List.finRange n) with
    | none =>
      have := argmaxOn_none _ _ hl
      rw [List.finRange_eq_nil_iff] at this
      omega
    | some l => exact ⟨l, rfl⟩
  by_cases hb : BothInt (Y ⟨0, hn⟩)
  · have h1 := widView_int hn hR Y hY.2.2.2 hb fun i => ⟨wid_nonneg' R (hY.1 i).2, hW i _ (hY.1 i) (hY.2.1 i)⟩
    obtain ⟨l, hl⟩ := some_l fun j => ((truncQ ((valBox Y j).wid R) : ℤ) : ℚ)
    refine ⟨_, l, h1, hl, ?_⟩
    have tr : ∀ i, truncQ ((valBox Y i).wid R) = ⌊(valBox Y i).wid R⌋ := fun i => if_pos (wid_nonneg' R (hY.1 i).2)
    have hfirst : l = ⟨0, hn⟩ ∨ truncQ ((valBox Y ⟨0, hn⟩).wid R) < truncQ ((valBox Y l).wid R) := by
      obtain ⟨m, rfl⟩ : ∃ m, n = m + 1 := ⟨n - 1, by omega⟩
      rw [List.finRange_succ] at hl
      rcases argmaxOn_first _ _ _ _ hl with h | h
      · exact .inl h
      · exact .inr (by exact_mod_cast h)
    by_cases hl0 : l = ⟨0, hn⟩
    · by_cases hw0 : δ < (valBox Y l).wid R
      · exact .inl hw0
      · refine .inr ⟨hl0, hb, ?_, hδ0⟩
        subst hl0
        obtain ⟨h2, h3⟩ := hY.2.2.2 ⟨0, hn⟩
        obtain ⟨h4, -⟩ := widNum_small hR _ h2 h3
        obtain ⟨p, q, hp, hq⟩ := hb
        have h5 : numRat (widNum R (Y ⟨0, hn⟩)) = ((q - p : ℤ) : ℚ) := by unfold widNum; rw [hp, hq]; rfl
        have h6 : ((q - p : ℤ) : ℚ) < 1 := by
          rw [← h5, h4]
          exact lt_of_le_of_lt (not_lt.mp hw0) hδ
        have h7 : q - p < 1 := by exact_mod_cast h6
        have h8 : p ≤ q := by
          have := (hY.1 ⟨0, hn⟩).2
          simp only [valBox, ivRat, hp, hq, numRat] at this
          exact_mod_cast this
        have : p = q := by omega
        simp only [valBox, ivRat, hp, hq, numRat, this]
    · rcases hfirst with h | h
      · exact absurd h hl0
      · left
        rw [tr, tr] at h
        have h2 : 0 ≤ ⌊(valBox Y ⟨0, hn⟩).wid R⌋ := Int.floor_nonneg.mpr (wid_nonneg' R (hY.1 _).2)
        have h3 : (1 : ℤ) ≤ ⌊(valBox Y l).wid R⌋ := by omega
        rw [Int.le_floor] at h3
        push_cast at h3
        linarith
  · obtain ⟨l, hl⟩ := some_l fun j => (valBox Y j).wid R
    refine ⟨_, l, widView_float hn hR Y hY.2.2.2 hb, hl, .inl ?_⟩
    obtain ⟨i, hi⟩ := hw
    exact hi.trans_le ((argmaxOn_spec _ _ _ hl).2 i (List.mem_finRange _))

variable {R G func x0} in
theorem globLoopF_ends (hn : 0 < n) (hG : MidOK R G) (hR : KeepsInts R)
    (hW : ∀ (i : Fin n) (X : Iv ℚ), Ordinary X → Sub X (x0 i) → X.wid R < 2 ^ 63) (δ q tol : ℚ) (hδ0 : 0 ≤ δ) (hδ : δ < 1)
    (hq : 0 ≤ q) (hH : HalfOK R G x0 δ q) (hT : ∀ Y, BoxOK G x0 Y → ∃ F, func Y = .ok F)
    (hN : ∀ Y F, BoxOK G x0 Y → (∀ i, (valBox Y i).wid R ≤ δ) → func Y = .ok F → F.wid R < tol) :
    ∀ (fuel : ℕ) (L : List ((Fin n → FIv) × ℚ)), GlobInvF G func x0 L → L ≠ [] → (∀ c ∈ L, Fine R δ q (valBox c.1)) →
      potLF R hn δ q L ≤ fuel →
      ∃ Y y rest F, globLoopF R func tol fuel L = .ok ((Y, y) :: rest) ∧ func Y = .ok F ∧ F.wid R < tol := by
  have hcons : ∀ (c : (Fin n → FIv) × ℚ) rest, potLF R hn δ q (c :: rest) = potF R hn δ q c.1 + potLF R hn δ q rest :=
    fun c rest => by unfold potLF; rw [List.map_cons, List.sum_cons]
  intro fuel
  induction fuel with
  | zero =>
    intro L hI hL hF hp
    obtain ⟨⟨Y, y⟩, rest, rfl⟩ := List.exists_cons_of_ne_nil hL
    obtain ⟨hY, F, hFY, -⟩ := hI.good (Y, y) (by simp)
    refine ⟨Y, y, rest, F, rfl, hFY, hN Y F hY (fun i => ?_) hFY⟩
    by_contra hi
    push Not at hi
    have h1 : potF R hn δ q Y = 0 := by
      rw [hcons] at hp
      dsimp only at hp
      omega
    have h2 : 0 < depth δ q ((valBox Y i).wid R) := depth_pos (hF (Y, y) (by simp) i) hi
    have h3 : depth δ q ((valBox Y i).wid R) ≤ ∑ i, depth δ q ((valBox Y i).wid R) :=
      Finset.single_le_sum (f := fun i => depth δ q ((valBox Y i).wid R)) (fun _ _ => Nat.zero_le _) (Finset.mem_univ i)
    have h4 := Nat.pow_le_pow_right (show 0 < 2 by norm_num)
      (show 1 ≤ ∑ i, depth δ q ((valBox Y i).wid R) + extra hn Y by omega)
    unfold potF at h1
    omega
  | succ fuel ih =>
    intro L hI hL hF hp
    obtain ⟨⟨Y, y⟩, rest, rfl⟩ := List.exists_cons_of_ne_nil hL
    obtain ⟨hY, F, hFY, -⟩ := hI.good (Y, y) (by simp)
    dsimp only at hY hFY
    unfold globLoopF
    dsimp only
    rw [hFY]
    dsimp only
    by_cases ht : tol ≤ F.wid R
    · rw [if_pos ht]
      have hw : ∃ i, δ < (valBox Y i).wid R := by
        by_contra hno
        push Not at hno
        exact absurd (hN Y F hY hno hFY) (not_lt.mpr ht)
      obtain ⟨w, l, h1, h2, h3⟩ := pick_spec hn hR hW δ hδ0 hδ hY hw
      obtain ⟨k1, k2⟩ := half_ok hG hY l
      obtain ⟨F1, hF1⟩ := hT _ k1
      obtain ⟨F2, hF2⟩ := hT _ k2
      have hstep : globStepF R func ((Y, y) :: rest) Y =
          .ok (globInsertF (globInsertF rest (halfL R Y l, F1.a)) (halfR R Y l, F2.a)) := by
        unfold globStepF
        rw [h1]
        dsimp only
        rw [h2]
        dsimp only
        change (match func (halfL R Y l) with | .error e => _ | .ok F1 => _) = _
        rw [hF1]
        dsimp only
        change (match func (halfR R Y l) with | .error e => _ | .ok F2 => _) = _
        rw [hF2]
        rfl
      rw [hstep]
      dsimp only
      obtain ⟨i1, i2⟩ := globStepF_inv hG Y y rest _ hI hstep
      obtain ⟨⟨f1, f2⟩, p1, p2⟩ := half_pot hn hG δ q hq hH hY (hF (Y, y) (by simp)) l h3
      have hs := hI.sorted
      simp only [List.map_cons, List.pairwise_cons] at hs
      obtain ⟨s1, m1⟩ := globInsertF_spec rest (halfL R Y l, F1.a) hs.2
      obtain ⟨-, m2⟩ := globInsertF_spec _ (halfR R Y l, F2.a) s1
      refine ih _ i1 i2 (fun c hc => ?_) ?_
      · rw [m2.mem_iff, List.mem_cons, m1.mem_iff, List.mem_cons] at hc
        rcases hc with rfl | rfl | hc
        · exact f2
        · exact f1
        · exact hF c (by simp [hc])
      · have e : potLF R hn δ q (globInsertF (globInsertF rest (halfL R Y l, F1.a)) (halfR R Y l, F2.a)) =
            potF R hn δ q (halfR R Y l) + (potF R hn δ q (halfL R Y l) + potLF R hn δ q rest) := by
          unfold potLF
          rw [(m2.map _).sum_eq, List.map_cons, List.sum_cons, (m1.map _).sum_eq, List.map_cons, List.sum_cons]
        rw [e]
        rw [hcons] at hp
        dsimp only at hp
        omega
    · rw [if_neg ht]
      exact ⟨Y, y, rest, F, rfl, hFY, not_le.mp ht⟩

/-- **C142**: `globopt` stops because of the tolerance also from a box whose endpoints are integers or a mixture of integers and
floats, although the widths it compares may be truncated to integers: if the interval extension is narrower than `tol` on boxes with
widths at most `δ < 1`, and component `i` of the start box is at most `δ` wide after `d i` bisections, then `2 ^ (∑ d i + 1) - 1`
passes are enough. -/
theorem C142_ends (hn : 0 < n) (hG : MidOK R G) (hR : KeepsInts R) (X0 : Fin n → FIv) (h0 : BoxOK G (valBox X0) X0)
    (hW : ∀ (i : Fin n) (X : Iv ℚ), Ordinary X → Sub X (valBox X0 i) → X.wid R < 2 ^ 63) (δ q tol : ℚ) (hδ0 : 0 ≤ δ)
    (hδ : δ < 1) (hq : 0 ≤ q) (hH : HalfOK R G (valBox X0) δ q) (hT : ∀ Y, BoxOK G (valBox X0) Y → ∃ F, func Y = .ok F)
    (hN : ∀ Y F, BoxOK G (valBox X0) Y → (∀ i, (valBox Y i).wid R ≤ δ) → func Y = .ok F → F.wid R < tol)
    (d : Fin n → ℕ) (hd : ∀ i, (valBox X0 i).wid R * q ^ d i ≤ δ) (maxiter : ℤ)
    (hm : (2 : ℤ) ^ (∑ i, d i + 1) ≤ maxiter + 2) :
    ∃ Y v, globoptF R func X0 tol maxiter = .ok (Y, v) ∧ v.wid R < tol := by
  obtain ⟨F, hF⟩ := hT X0 h0
  have hI : GlobInvF G func (valBox X0) [(X0, F.a)] := ⟨by simp, fun c hc => by
        obtain rfl := List.mem_singleton.mp hc
        exact ⟨h0, F, hF, rfl⟩, fun x hx => ⟨_, List.mem_singleton.mpr rfl, hx⟩⟩
  have hp : potLF R hn δ q [(X0, F.a)] ≤ (maxiter + 1).toNat := by
    have h1 : ∑ i, depth δ q ((valBox X0 i).wid R) ≤ ∑ i, d i := Finset.sum_le_sum fun i _ => depth_le (hd i)
    have hx : extra hn X0 ≤ 1 := by unfold extra; split_ifs <;> omega
    have h2 := Nat.pow_le_pow_right (show 0 < 2 by norm_num) (Nat.add_le_add h1 hx)
    have h3 : ((2 ^ (∑ i, d i + 1) : ℕ) : ℤ) ≤ maxiter + 2 := by exact_mod_cast hm
    simp only [potLF, List.map_cons, List.map_nil, List.sum_cons, List.sum_nil, potF]
    omega
  obtain ⟨Y, y, rest, FY, h1, h2, h3⟩ := globLoopF_ends hn hG hR hW δ q tol hδ0 hδ hq hH hT hN _ _ hI (by simp)
    (fun c hc i => by
      obtain rfl := List.mem_singleton.mp hc
      exact ⟨d i, hd i⟩) hp
  refine ⟨Y, FY, ?_, h3⟩
  unfold globoptF
  rw [hF]
  dsimp only
  rw [h1]
  dsimp only
  rw [h2]
  rfl

end

/-- C142 in binary64: all endpoints of modulus at most `M ≤ 2^52`, widths down to `M / 2^40`. -/
theorem C142_b64 {n : ℕ} (hn : 0 < n) (func : (Fin n → FIv) → Except Err (Iv ℚ)) (X0 : Fin n → FIv)
    (h0 : BoxOK IsF (valBox X0) X0) (M δ tol : ℚ) (hM0 : (2 : ℚ) ^ (-1015 : ℤ) ≤ M) (hM1 : M ≤ 2 ^ 52)
    (hM : ∀ i, |(valBox X0 i).a| ≤ M ∧ |(valBox X0 i).b| ≤ M) (hδ : M / 2 ^ 40 ≤ δ) (hδ1 : δ < 1)
    (hT : ∀ Y, BoxOK IsF (valBox X0) Y → ∃ F, func Y = .ok F)
    (hN : ∀ Y F, BoxOK IsF (valBox X0) Y → (∀ i, (valBox Y i).wid Rnd.b64 ≤ δ) → func Y = .ok F → F.wid Rnd.b64 < tol)
    (d : Fin n → ℕ) (hd : ∀ i, (valBox X0 i).wid Rnd.b64 * (1 / 2 + 1 / 1024) ^ d i ≤ δ) (maxiter : ℤ)
    (hm : (2 : ℤ) ^ (∑ i, d i + 1) ≤ maxiter + 2) :
    ∃ Y v, globoptF Rnd.b64 func X0 tol maxiter = .ok (Y, v) ∧ v.wid Rnd.b64 < tol := by
  have hMp : 0 < M := lt_of_lt_of_le (zpow_pos (by norm_num) _) hM0
  refine C142_ends Rnd.b64 IsF func hn midOK_b64 keepsInts_b64 X0 h0 (fun i X hX hs => ?_) δ (1 / 2 + 1 / 1024) tol
    (le_trans (by positivity) hδ) hδ1 (by norm_num) (halfOK_b64 _ M δ hM0 hM hδ) hT hN d hd maxiter hm
  have h1 := Iv.mem_def.mp (hs X.a ⟨le_rfl, hX.2⟩)
  have h2 := Iv.mem_def.mp (hs X.b ⟨hX.2, le_rfl⟩)
  have a1 := (abs_le.mp (hM i).1).1
  have a2 := (abs_le.mp (hM i).2).2
  have h3 : X.b - X.a ≤ ((2 ^ 53 : ℤ) : ℚ) := by push_cast; linarith [h1.1, h2.2]
  calc X.wid Rnd.b64 = nearTo (X.b - X.a) := rfl
    _ ≤ nearTo ((2 ^ 53 : ℤ) : ℚ) := nearTo_mono h3
    _ = ((2 ^ 53 : ℤ) : ℚ) := keepsInts_b64 _ (by norm_num)
    _ < 2 ^ 63 := by norm_num

/-! ## The bound is sharp -/

/-- The natural extension of `x - x` for the second component. -/
def diffBox (Y : Fin 2 → FIv) : Except Err (Iv ℚ) := .ok ((ivRat (Y 1)).sub Rnd.exact (ivRat (Y 1)))

/-- The box `[0, 0] × [0, 1]` with integer endpoints, and with floats. -/
def unitInt : Fin 2 → FIv := ![⟨.classical, .int 0, .int 0⟩, ⟨.classical, .int 0, .int 1⟩]
/-- See `unitInt`. -/
def unitDbl : Fin 2 → FIv :=
  ![⟨.classical, .dbl (.fin 0), .dbl (.fin 0)⟩, ⟨.classical, .dbl (.fin 0), .dbl (.fin 1)⟩]

/-- The width of the returned value. -/
def retWid : Except Err ((Fin 2 → FIv) × Iv ℚ) → Option ℚ
  | .ok (_, v) => some (v.wid Rnd.exact)
  | .error _ => none

/-- With floats 3 passes reach the tolerance 6/10, as C127 says.  With integers 6 passes do not: four of them bisect the point
`[0, 0]`, because the widths 0 and 1/2 are read as 0 and 0. -/
theorem C142_doubles : retWid (globoptF Rnd.exact diffBox unitDbl (6 / 10) 2) = some (1 / 2) ∧
    retWid (globoptF Rnd.exact diffBox unitInt (6 / 10) 5) = some 1 ∧
    retWid (globoptF Rnd.exact diffBox unitInt (6 / 10) 6) = some (1 / 2) := by
  decide +kernel

/-- The hypotheses of `C142_ends` hold for this box, with `δ = 1/4` and two bisections of the second component. -/
example : BoxOK (fun _ => True) (valBox unitInt) unitInt ∧
    (∀ (i : Fin 2) (X : Iv ℚ), Ordinary X → Sub X (valBox unitInt i) → X.wid Rnd.exact < 2 ^ 63) ∧
    HalfOK Rnd.exact (fun _ => True) (valBox unitInt) (1 / 4) (1 / 2) ∧
    (∀ Y F, BoxOK (fun _ => True) (valBox unitInt) Y → (∀ i, (valBox Y i).wid Rnd.exact ≤ 1 / 4) → diffBox Y = .ok F →
      F.wid Rnd.exact < 6 / 10) ∧
    (∀ i, (valBox unitInt i).wid Rnd.exact * (1 / 2) ^ (![0, 2] : Fin 2 → ℕ) i ≤ 1 / 4) ∧
    (2 : ℤ) ^ (∑ i, (![0, 2] : Fin 2 → ℕ) i + 1) ≤ 6 + 2 := by
  refine ⟨⟨fun i => ?_, fun i t ht => ht, fun i => ⟨trivial, trivial⟩, fun i => ?_⟩, fun i X hX hs => ?_, halfOK_exact _ _,
    fun Y F hY hw h => ?_, fun i => ?_, by decide⟩
  · fin_cases i <;> exact ⟨rfl, by decide +kernel⟩
  · fin_cases i <;> constructor <;> simp [unitInt, SmallEnd]
  · have h1 := Iv.mem_def.mp (hs X.a ⟨le_rfl, hX.2⟩)
    have h2 := Iv.mem_def.mp (hs X.b ⟨hX.2, le_rfl⟩)
    simp only [Iv.wid, Rnd.exact_nr, id]
    fin_cases i <;> simp [valBox, unitInt, ivRat, numRat] at h1 h2 <;> linarith
  · cases h
    have h1 := hw 1
    have h2 := (hY.1 1)
    simp only [valBox] at h1 h2
    have h3 : (ivRat (Y 1)).sub Rnd.exact (ivRat (Y 1)) =
        ⟨.classical, (ivRat (Y 1)).a - (ivRat (Y 1)).b, (ivRat (Y 1)).b - (ivRat (Y 1)).a⟩ := by
      simp [Iv.sub, h2.1]
    rw [h3]
    simp only [Iv.wid, Rnd.exact_nr, id] at h1 ⊢
    linarith
  · fin_cases i <;> norm_num [valBox, unitInt, ivRat, numRat, Iv.wid]

end IntvalPy
