import Verif.ModelPSSViews
import Verif.PropsViews
import Verif.PropsPSS

/-!
# C52: `PSS` on start boxes with integer and float endpoints
-/

set_option autoImplicit false
set_option linter.unusedSectionVars false

namespace IntvalPy
open Spec

variable {m n : ℕ}

/-- The element with its box read as exact intervals. -/
def PssElF.toEl (e : PssElF m) : PssEl ℚ m := ⟨fun j => ivRat (e.Q j), e.q, e.ar⟩

theorem pssInsertF_map (e : PssElF m) (L : List (PssElF m)) :
    (pssInsertF e L).map PssElF.toEl = pssInsert e.toEl (L.map PssElF.toEl) := by
  induction L with
  | nil => rfl
  | cons h t ih =>
    simp only [pssInsertF, List.map_cons, pssInsert, PssElF.toEl] at ih ⊢
    split_ifs
    · simp only [List.map_cons, PssElF.toEl]
      rw [← ih]
    · rfl

theorem pssPruneF_map (omega : ℚ) (L : List (PssElF m)) (o : Option ℚ) :
    ((pssPruneF omega L o).1, (pssPruneF omega L o).2.map PssElF.toEl) = pssPrune omega (L.map PssElF.toEl) o := by
  cases o with
  | none => rfl
  | some e =>
    simp only [pssPruneF, pssPrune]
    split_ifs
    · simp only [List.filter_map]
      rfl
    · rfl

theorem pssHeadF_map (L : List (PssElF m)) : pssHeadF L = pssHead (L.map PssElF.toEl) := by
  cases L <;> rfl

/-- `exactOmega` reads the endpoints only. -/
theorem exactOmega_ends {R : Rnd ℚ} (lp : LpSolver ℚ (PssRow n m) (Fin (m + 1))) (A : Fin n → Fin (m + 1) → Iv ℚ)
    (b : Fin n → Iv ℚ) (nu : Fin (m + 1)) (Vnu : Iv ℚ) (Q Q' : Fin m → Iv ℚ)
    (ha : ∀ j, (Q j).a = (Q' j).a) (hb : ∀ j, (Q j).b = (Q' j).b) :
    exactOmega R lp A b nu Vnu Q = exactOmega R lp A b nu Vnu Q' := by
  have e1 : (fun j => npSign (Q j).a) = fun j => npSign (Q' j).a := funext fun j => by rw [ha]
  have e2 : pssLpB b nu Q = pssLpB b nu Q' := by
    have f1 : (fun j => -(Q j).a) = fun j => -(Q' j).a := funext fun j => by rw [ha]
    have f2 : (fun j => (Q j).b) = fun j => (Q' j).b := funext fun j => by rw [hb]
    funext r
    rcases r with i | i | k | k | k <;> simp only [pssLpB, f1, f2]
  unfold exactOmega pssLp
  simp only [e1, e2]

theorem mkFIv_rat (l r : Num) : ivRat (mkFIv l r) = mkIv (numRat l) (numRat r) := by
  unfold mkFIv ivRat mkIv
  split_ifs <;> rfl

theorem pssSplitF_rat (R : Rnd ℚ) (Q : Fin m → FIv) (k : Fin m) :
    (fun j => ivRat ((pssSplitF R Q k).1 j)) = (pssSplit R (fun j => ivRat (Q j)) k).1 ∧
    (fun j => ivRat ((pssSplitF R Q k).2 j)) = (pssSplit R (fun j => ivRat (Q j)) k).2 := by
  have e : ∀ p : Prop, ∀ [Decidable p], ∀ x : ℚ, numRat (if p then .int 0 else .dbl (.fin x)) = if p then 0 else x := by
    intro p _ x
    split_ifs <;> simp [numRat]
  constructor <;> funext j <;> unfold pssSplitF pssSplit <;> dsimp only <;> by_cases hj : j = k
  · subst hj
    rw [Function.update_self, Function.update_self, mkFIv_rat, e]
    rfl
  · rw [Function.update_of_ne hj, Function.update_of_ne hj]
  · subst hj
    rw [Function.update_self, Function.update_self, mkFIv_rat, e]
    rfl
  · rw [Function.update_of_ne hj, Function.update_of_ne hj]

/-- A set of boxes on which the views read by `algo` are right, closed under the splitting. -/
structure ViewInv (R : Rnd ℚ) (m : ℕ) (G : (Fin m → FIv) → Prop) : Prop where
  wid : ∀ Q, G Q → widView R Q = .ok fun j => (ivRat (Q j)).wid R
  ends : ∀ Q, G Q → (∀ j, ¬ (0 : ℚ) ∈ ivRat (Q j)) → ViewsRight (List.ofFn Q)
  split : ∀ Q k, G Q → G (pssSplitF R Q k).1 ∧ G (pssSplitF R Q k).2

theorem pssHalfF_eq (P : PssArg ℚ n m) {G : (Fin m → FIv) → Prop} (hG : ViewInv P.R m G) (omega : ℚ)
    (L : List (PssElF m)) (hL : ∀ e ∈ L, G e.Q) (Q : Fin m → FIv) (hQ : G Q) :
    (∀ L' eta, pssHalfF P omega L Q = .ok (L', eta) → ∀ e ∈ L', G e.Q) ∧
    (pssHalfF P omega L Q).map (fun r => (r.1.map PssElF.toEl, r.2)) =
      pssHalf P omega (L.map PssElF.toEl) (fun j => ivRat (Q j)) := by
  have mem_ins : ∀ (e f : PssElF m) (L : List (PssElF m)), f ∈ pssInsertF e L → f = e ∨ f ∈ L := by
    intro e f L
    induction L with
    | nil => simp [pssInsertF]
    | cons h t ih =>
      unfold pssInsertF
      split_ifs
      · rw [List.mem_cons, List.mem_cons]
        rintro (h1 | h1)
        · exact .inr (.inl h1)
        · exact (ih h1).imp_right .inr
      · rw [List.mem_cons]; exact id
  have gins : ∀ q ar, ∀ e ∈ pssInsertF ⟨Q, q, ar⟩ L, G e.Q := by
    intro q ar e he
    rcases mem_ins _ _ _ he with rfl | h
    · exact hQ
    · exact hL e h
  unfold pssHalfF pssHalf
  dsimp only
  by_cases hz : ((List.finRange m).any fun j => (ivRat (Q j)).containsNum 0) = true
  · rw [if_pos hz, if_pos hz]
    cases omegaFn P.R (P.V P.nu) (pssRes P.R P.A P.b P.nu fun j => ivRat (Q j)) (fun i => P.A i P.nu) with
    | error e => exact ⟨fun _ _ h => (by cases h), rfl⟩
    | ok o =>
      cases o with
      | none => exact ⟨fun _ _ h => by cases h; exact hL, rfl⟩
      | some q =>
        dsimp only
        by_cases hq : q < omega
        · rw [if_pos hq, if_pos hq]
          cases omegaFn P.R (P.V P.nu) (pssResMid P.R P.A P.b P.nu fun j => ivRat (Q j)) (fun i => P.A i P.nu) with
          | error e => exact ⟨fun _ _ h => (by cases h), rfl⟩
          | ok eta =>
            refine ⟨fun _ _ h => by cases h; exact gins q true, ?_⟩
            simp only [Except.map, pssInsertF_map]
            rfl
        · rw [if_neg hq, if_neg hq]
          exact ⟨fun _ _ h => by cases h; exact hL, rfl⟩
  · rw [if_neg hz, if_neg hz]
    have h0 : ∀ j, ¬ (0 : ℚ) ∈ ivRat (Q j) := fun j hj =>
      hz (List.any_eq_true.2 ⟨j, List.mem_finRange j, containsNum_iff.2 hj⟩)
    have e1 : exactOmegaF P.R P.lp P.A P.b P.nu (P.V P.nu) Q =
        .ok (exactOmega P.R P.lp P.A P.b P.nu (P.V P.nu) fun j => ivRat (Q j)) := by
      unfold exactOmegaF
      rw [viewFin_right (hG.ends Q hQ h0)]
      dsimp only
      rw [exactOmega_ends P.lp P.A P.b P.nu _ (fun i => endsIv (Q i)) (fun j => ivRat (Q j)) (fun _ => rfl) fun _ => rfl]
    rw [e1]
    dsimp only
    by_cases hq : exactOmega P.R P.lp P.A P.b P.nu (P.V P.nu) (fun j => ivRat (Q j)) < omega
    · rw [if_pos hq, if_pos hq]
      refine ⟨fun _ _ h => by cases h; exact gins _ false, ?_⟩
      simp only [Except.map, pssInsertF_map]
      rfl
    · rw [if_neg hq, if_neg hq]
      exact ⟨fun _ _ h => by cases h; exact hL, rfl⟩

theorem pssLoopF_eq (P : PssArg ℚ n m) {G : (Fin m → FIv) → Prop} (hG : ViewInv P.R m G) (fuel : ℕ) :
    ∀ (omega : ℚ) (L : List (PssElF m)) (item : ℕ) (Q : Fin m → FIv), (∀ e ∈ L, G e.Q) → G Q →
    pssLoopF P fuel omega L item Q = pssLoop P fuel omega (L.map PssElF.toEl) item fun j => ivRat (Q j) := by
  induction fuel with
  | zero => intro omega L item Q _ _; exact pssHeadF_map L
  | succ fuel ih =>
    intro omega L item Q hL hQ
    simp only [pssLoopF, pssLoop]
    rw [hG.wid Q hQ]
    dsimp only
    cases argmaxOn (fun j => (ivRat (Q j)).wid P.R) (List.finRange m) with
    | none => rfl
    | some k =>
      dsimp only
      by_cases ht : P.tol ≤ (ivRat (Q k)).wid P.R
      · rw [if_pos ht, if_pos ht]
        have hL0 : ∀ e ∈ L.eraseIdx item, G e.Q := fun e he => hL e (List.mem_of_mem_eraseIdx he)
        obtain ⟨g1, h1⟩ := pssHalfF_eq P hG omega (L.eraseIdx item) hL0 (pssSplitF P.R Q k).1 (hG.split Q k hQ).1
        rw [(pssSplitF_rat P.R Q k).1, ← List.eraseIdx_map] at h1
        rw [← h1]
        cases hh1 : pssHalfF P omega (L.eraseIdx item) (pssSplitF P.R Q k).1 with
        | error e => rfl
        | ok r1 =>
          obtain ⟨L1, eta1⟩ := r1
          simp only [Except.map]
          obtain ⟨g2, h2⟩ := pssHalfF_eq P hG omega L1 (g1 L1 eta1 hh1) (pssSplitF P.R Q k).2 (hG.split Q k hQ).2
          rw [(pssSplitF_rat P.R Q k).2] at h2
          rw [← h2]
          cases hh2 : pssHalfF P omega L1 (pssSplitF P.R Q k).2 with
          | error e => rfl
          | ok r2 =>
            obtain ⟨L2, eta2⟩ := r2
            simp only [Except.map]
            rw [← pssPruneF_map]
            have hP : ∀ e ∈ (pssPruneF omega L2 (etaMin eta1 eta2)).2, G e.Q := by
              intro e he
              have : e ∈ L2 := by
                unfold pssPruneF at he
                split at he
                · exact he
                · split_ifs at he
                  · exact (List.mem_filter.mp he).1
                  · exact he
              exact g2 L2 eta2 hh2 e this
            generalize pssPruneF omega L2 (etaMin eta1 eta2) = r at hP
            dsimp only
            have e1 : List.findIdx? (fun l : PssEl ℚ m => l.ar) (r.2.map PssElF.toEl) =
                List.findIdx? (fun l : PssElF m => l.ar) r.2 := by
              rw [List.findIdx?_map]; rfl
            rw [e1]
            cases List.findIdx? (fun l : PssElF m => l.ar) r.2 with
            | none => exact pssHeadF_map _
            | some i =>
              dsimp only
              rw [List.getElem?_map]
              cases hl : r.2[i]? with
              | none => exact pssHeadF_map _
              | some l =>
                simp only [Option.map_some]
                rw [ih r.1 r.2 i l.Q hP (hP l (List.mem_of_getElem? hl))]
                rfl
      · rw [if_neg ht, if_neg ht]
        exact pssHeadF_map L

theorem pssAlgoF_eq {R : Rnd ℚ} {G : (Fin m → FIv) → Prop} (hG : ViewInv R m G)
    (lp : LpSolver ℚ (PssRow n m) (Fin (m + 1))) (A : Fin n → Fin (m + 1) → Iv ℚ) (b : Fin n → Iv ℚ)
    (V : Fin (m + 1) → FIv) (nu : Fin (m + 1)) (hV : G fun j => V (nu.succAbove j)) (tol : ℚ) (maxiter : ℤ) :
    pssAlgoF R lp A b V nu tol maxiter = pssAlgo ⟨R, lp, A, b, fun j => ivRat (V j), nu, tol⟩ maxiter := by
  unfold pssAlgoF pssAlgo
  split_ifs
  · rfl
  · dsimp only
    refine pssLoopF_eq _ hG _ _ _ 0 _ ?_ hV
    intro e he
    rw [List.mem_singleton.1 he]
    exact hV

theorem pssAllF_eq {R : Rnd ℚ} {G : (Fin m → FIv) → Prop} (hG : ViewInv R m G)
    (lp : LpSolver ℚ (PssRow n m) (Fin (m + 1))) (A : Fin n → Fin (m + 1) → Iv ℚ) (b : Fin n → Iv ℚ)
    (V : Fin (m + 1) → FIv) (hV : ∀ nu : Fin (m + 1), G fun j => V (nu.succAbove j)) (nu0 : Fin (m + 1)) (tol : ℚ)
    (maxiter : ℤ) (nus : List (Fin (m + 1))) :
    pssAllF R lp A b V tol maxiter nus = pssAll ⟨R, lp, A, b, fun j => ivRat (V j), nu0, tol⟩ maxiter nus := by
  induction nus with
  | nil => rfl
  | cons nu nus ih =>
    simp only [pssAllF, pssAll]
    rw [pssAlgoF_eq hG lp A b V nu (hV nu), ih]
    cases pssAlgo ⟨R, lp, A, b, fun j => ivRat (V j), nu, tol⟩ maxiter <;> rfl

theorem pssF_eq {R : Rnd ℚ} {G : (Fin m → FIv) → Prop} (hG : ViewInv R m G)
    (lp : LpSolver ℚ (PssRow n m) (Fin (m + 1))) (start : (Fin n → Iv ℚ) → Fin (m + 1) → FIv)
    (A : Fin n → Fin (m + 1) → Iv ℚ) (b : Fin n → Iv ℚ)
    (hV1 : ∀ nu : Fin (m + 1), G fun j => start (fun i => (b i).rmul R 1) (nu.succAbove j))
    (hV2 : ∀ nu : Fin (m + 1), G fun j => start (fun i => ((b i).rmul R 1).rmul R (-1)) (nu.succAbove j))
    (tol : ℚ) (maxiter : ℤ) (nu : Option (Fin (m + 1))) :
    pssF R lp start tol maxiter A b nu = pss R lp (fun c j => ivRat (start c j)) tol maxiter A b nu := by
  unfold pssF pss
  dsimp only
  rw [pssAllF_eq hG lp A _ _ hV1 0, pssAllF_eq hG lp A _ _ hV2 0]
  cases pssAll (⟨R, lp, A, fun i => (b i).rmul R 1, fun j => ivRat (start (fun i => (b i).rmul R 1) j), 0, tol⟩ :
      PssArg ℚ n m) maxiter (pssNus nu) with
  | error e => rfl
  | ok inf =>
    dsimp only
    cases pssAll (⟨R, lp, A, fun i => ((b i).rmul R 1).rmul R (-1),
        fun j => ivRat (start (fun i => ((b i).rmul R 1).rmul R (-1)) j), 0, tol⟩ : PssArg ℚ n m) maxiter (pssNus nu) <;>
      rfl

/-! ## Start boxes for which the views are right -/

theorem widView_right (R : Rnd ℚ) (Q : Fin m → FIv)
    (h : ∃ l, npVectorizeNum (List.ofFn fun j => widNum R (Q j)) = .ok l ∧
      l.map Num.val = (List.ofFn fun j => widNum R (Q j)).map Num.val) :
    widView R Q = .ok fun j => numRat (widNum R (Q j)) := by
  obtain ⟨l, h1, h2⟩ := h
  rw [widView, h1]
  dsimp only
  congr 1
  funext j
  have hlen : l.length = m := by simpa using congrArg List.length h2
  have h5 := congrArg (fun l => l[(j : ℕ)]?) h2
  simp only [List.getElem?_map, List.getElem?_ofFn, j.isLt, dif_pos, Option.map_some, Fin.eta] at h5
  rw [List.getElem?_eq_getElem (by omega)] at h5
  simp only [Option.map_some, Option.some.injEq] at h5
  rw [List.getD_eq_getElem?_getD, List.getElem?_eq_getElem (by omega), Option.getD_some]
  exact numRat_val h5

theorem widNum_rat {R : Rnd ℚ} (hnr : ∀ x, R.nr x = x) (X : FIv) : numRat (widNum R X) = (ivRat X).wid R := by
  obtain ⟨c, a, b⟩ := X
  cases a <;> cases b <;> simp [widNum, numRat, ivRat, Iv.wid, hnr]

/-- Both endpoints are floats, or one is a float and the other the integer 0. -/
def FloatOrZero (X : FIv) : Prop :=
  (∃ p q, X.a = .dbl (.fin p) ∧ X.b = .dbl (.fin q)) ∨ (∃ q, X.a = .int 0 ∧ X.b = .dbl (.fin q)) ∨
    ∃ p, X.a = .dbl (.fin p) ∧ X.b = .int 0

theorem viewInv_float {R : Rnd ℚ} (hnr : ∀ x, R.nr x = x) (hm : 0 < m) :
    ViewInv R m fun Q => ∀ j, FloatOrZero (Q j) ∧ Ordinary (ivRat (Q j)) := by
  have hd : ∀ X, FloatOrZero X → ∃ d, widNum R X = .dbl d := by
    rintro ⟨c, a, b⟩ (⟨p, q, h1, h2⟩ | ⟨q, h1, h2⟩ | ⟨p, h1, h2⟩) <;> dsimp only at h1 h2 <;> subst h1 h2 <;>
      exact ⟨_, rfl⟩
  refine ⟨fun Q hQ => ?_, fun Q hQ h0 => ?_, fun Q k hQ => ?_⟩
  · rw [widView_right R Q]
    · simp only [widNum_rat hnr]
    · rw [C63_view_iff]
      · left
        obtain ⟨d, hd⟩ := hd _ (hQ ⟨0, hm⟩).1
        refine ⟨d, ?_⟩
        rw [List.head?_eq_getElem?, List.getElem?_ofFn, dif_pos hm, hd]
      · intro he
        have := congrArg List.length he
        simp at this
        omega
      · intro x hx
        obtain ⟨j, rfl⟩ := (List.mem_ofFn' _ _).mp hx
        obtain ⟨d, hd⟩ := hd _ (hQ j).1
        dsimp only
        rw [hd]
        trivial
  · have hf : ∀ j, ∃ p q, (Q j).a = .dbl (.fin p) ∧ (Q j).b = .dbl (.fin q) := by
      intro j
      have h3 := (hQ j).2.2
      rcases (hQ j).1 with h | ⟨q, h1, h2⟩ | ⟨p, h1, h2⟩
      · exact h
      · refine absurd ?_ (h0 j)
        rw [Iv.mem_def]
        simp only [ivRat, h1, h2, numRat] at h3 ⊢
        norm_num at h3 ⊢
        exact h3
      · refine absurd ?_ (h0 j)
        rw [Iv.mem_def]
        simp only [ivRat, h1, h2, numRat] at h3 ⊢
        norm_num at h3 ⊢
        exact h3
    refine PlainEnds.right ⟨?_, ?_, .inl ?_⟩
    · intro he
      have := congrArg List.length he
      simp at this
      omega
    · intro X hX
      obtain ⟨j, rfl⟩ := (List.mem_ofFn' _ _).mp hX
      obtain ⟨p, q, h1, h2⟩ := hf j
      rw [h1, h2]
      exact ⟨trivial, trivial⟩
    · obtain ⟨p, q, h1, h2⟩ := hf ⟨0, hm⟩
      refine ⟨Q ⟨0, hm⟩, _, _, ?_, h1, h2⟩
      rw [List.head?_eq_getElem?, List.getElem?_ofFn, dif_pos hm]
  · have ho := pssSplit_ordinary hnr (fun j => ivRat (Q j)) k fun j => (hQ j).2
    have e1 := fun j => congrFun (pssSplitF_rat R Q k).1 j
    have e2 := fun j => congrFun (pssSplitF_rat R Q k).2 j
    refine ⟨fun j => ⟨?_, by rw [e1]; exact ho.1 j⟩, fun j => ⟨?_, by rw [e2]; exact ho.2 j⟩⟩
    all_goals
      unfold pssSplitF
      dsimp only
      by_cases hj : j = k
      swap
      · rw [Function.update_of_ne hj]; exact (hQ j).1
      subst hj
      rw [Function.update_self]
      unfold mkFIv
      split_ifs with hc
      · obtain ⟨ha, hc1, hc2⟩ := hc
        rw [hnr] at hc1 hc2
        rw [hnr] at hc2
        rcases (hQ j).1 with ⟨p, q, h1, h2⟩ | ⟨q, h1, h2⟩ | ⟨p, h1, h2⟩
        · first
            | exact .inr (.inr ⟨p, h1, rfl⟩)
            | exact .inr (.inl ⟨q, rfl, h2⟩)
        · simp [ivRat, h1, numRat] at ha
        · simp only [ivRat, h2, numRat, Int.cast_zero, zero_div] at hc2
          norm_num at hc2
      · rcases (hQ j).1 with ⟨p, q, h1, h2⟩ | ⟨q, h1, h2⟩ | ⟨p, h1, h2⟩
        · first
            | exact .inl ⟨p, _, h1, rfl⟩
            | exact .inl ⟨_, q, rfl, h2⟩
        · first
            | exact .inr (.inl ⟨_, h1, rfl⟩)
            | exact .inl ⟨_, q, rfl, h2⟩
        · first
            | exact .inl ⟨p, _, h1, rfl⟩
            | exact .inr (.inr ⟨_, rfl, h2⟩)

/-- The endpoint is a float, or an integer of modulus at most `2^52`. -/
def SmallEnd : Num → Prop
  | .int z => |z| ≤ 2 ^ 52
  | .dbl (.fin _) => True
  | .dbl _ => False

theorem viewInv_one {R : Rnd ℚ} (hnr : ∀ x, R.nr x = x) :
    ViewInv R 1 fun Q => SmallEnd (Q 0).a ∧ SmallEnd (Q 0).b := by
  have hi : ∀ x, SmallEnd x → x.IntsLe (2 ^ 53) := by
    intro x hx
    cases x with
    | int z =>
      have : |z| ≤ 2 ^ 52 := hx
      show |z| ≤ 2 ^ 53
      omega
    | dbl d => trivial
  have key : ∀ x, x.IntsLe (2 ^ 53) → ∃ l, npVectorizeNum [x] = .ok l ∧ l.map Num.val = [x].map Num.val := by
    intro x hx
    rw [C63_view_iff _ (by simp) (by simpa using hx)]
    cases x with
    | int z =>
      right
      have h : |z| ≤ 2 ^ 53 := hx
      rw [abs_le] at h
      intro y hy
      rw [List.mem_singleton] at hy
      subst hy
      exact ⟨z, rfl, by omega, by omega⟩
    | dbl d => exact .inl ⟨d, rfl⟩
  refine ⟨fun Q hQ => ?_, fun Q hQ _ => ?_, fun Q k hQ => ?_⟩
  · rw [widView_right R Q]
    · simp only [widNum_rat hnr]
    · have : (List.ofFn fun j : Fin 1 => widNum R (Q j)) = [widNum R (Q 0)] := by simp
      rw [this]
      refine key _ ?_
      obtain ⟨h1, h2⟩ := hQ
      unfold widNum
      split
      · next p q hp hq =>
        rw [hp] at h1
        rw [hq] at h2
        have h1 : |p| ≤ 2 ^ 52 := h1
        have h2 : |q| ≤ 2 ^ 52 := h2
        rw [abs_le] at h1 h2
        show |q - p| ≤ 2 ^ 53
        rw [abs_le]
        constructor <;> omega
      · trivial
  · have : List.ofFn Q = [Q 0] := by simp
    rw [this]
    exact ⟨key _ (hi _ hQ.1), key _ (hi _ hQ.2)⟩
  · have hk : k = 0 := Subsingleton.elim _ _
    subst hk
    simp only [pssSplitF, Function.update_self, mkFIv]
    split_ifs
    · exact ⟨⟨hQ.1, by simp [SmallEnd]⟩, by simp [SmallEnd], hQ.2⟩
    · exact ⟨⟨hQ.1, trivial⟩, trivial, hQ.2⟩

/-! ## C52 for interval objects -/

/-- A start box for which the views read by `algo` are right: the endpoints are floats, or there are two unknowns and
the integer endpoints are at most `2^52` in modulus. -/
def PlainStart (V : Fin (m + 1) → FIv) : Prop :=
  (∀ j, ∃ p q, (V j).a = .dbl (.fin p) ∧ (V j).b = .dbl (.fin q)) ∨
  m = 1 ∧ ∀ j, SmallEnd (V j).a ∧ SmallEnd (V j).b

/-- C52 for one component, full statement on start boxes whose endpoints may be integers and floats: the bound is not
above the component of any solution in the start box. -/
def C52_objects_statement : Prop :=
  ∀ (n m : ℕ) (lp : LpSolver ℚ (PssRow n m) (Fin (m + 1))), LpOK lp → LpComplete lp →
  ∀ (A : Fin n → Fin (m + 1) → Iv ℚ) (b : Fin n → Iv ℚ), (∀ i j, Ordinary (A i j)) → (∀ i, Ordinary (b i)) →
  ∀ V : Fin (m + 1) → FIv, (∀ j, SmallEnd (V j).a ∧ SmallEnd (V j).b ∧ Ordinary (ivRat (V j))) →
  (∀ j, -10 ^ 15 ≤ (ivRat (V j)).a ∧ (ivRat (V j)).b ≤ 10 ^ 15) →
  ∀ (nu : Fin (m + 1)) (tol : ℚ) (maxiter : ℤ) (r : ℚ), pssAlgoF Rnd.exact lp A b V nu tol maxiter = .ok r →
  ∀ x, United A b x → (∀ j, x j ∈ ivRat (V j)) → r ≤ x nu

/-- C52 for one component (partial): right when the endpoints of the start box are floats, and for two unknowns.
Missing: start boxes with integer endpoints for three and more unknowns (`C52_objects_false`). -/
theorem C52_objects_partial {R : Rnd ℚ} (hnr : ∀ x, R.nr x = x) (lp : LpSolver ℚ (PssRow n m) (Fin (m + 1)))
    (hlp : LpOK lp) (hc : LpComplete lp) (A : Fin n → Fin (m + 1) → Iv ℚ) (b : Fin n → Iv ℚ)
    (hA : ∀ i j, Ordinary (A i j)) (hb : ∀ i, Ordinary (b i)) (V : Fin (m + 1) → FIv)
    (hV : ∀ j, Ordinary (ivRat (V j))) (hp : PlainStart V)
    (hbig : ∀ j, -10 ^ 15 ≤ (ivRat (V j)).a ∧ (ivRat (V j)).b ≤ 10 ^ 15)
    (nu : Fin (m + 1)) (tol : ℚ) (maxiter : ℤ) (r : ℚ) (h : pssAlgoF R lp A b V nu tol maxiter = .ok r)
    (x : Fin (m + 1) → ℚ) (hx : United A b x) (hxV : ∀ j, x j ∈ ivRat (V j)) : r ≤ x nu := by
  have e : pssAlgoF R lp A b V nu tol maxiter = pssAlgo ⟨R, lp, A, b, fun j => ivRat (V j), nu, tol⟩ maxiter := by
    rcases hp with hf | ⟨rfl, hs⟩
    · rcases Nat.eq_zero_or_pos m with rfl | hm
      · rfl
      · exact pssAlgoF_eq (viewInv_float hnr hm) lp A b V nu (fun j => ⟨.inl (hf _), hV _⟩) tol maxiter
    · exact pssAlgoF_eq (viewInv_one hnr) lp A b V nu (hs _) tol maxiter
  rw [e] at h
  exact C52_algo_le ⟨R, lp, A, b, fun j => ivRat (V j), nu, tol⟩ ⟨hnr, hlp, hc, hA, hb, hV, hbig nu⟩ maxiter r h x hx hxV

/-- C52 (partial) for the whole of `PSS` on start boxes of interval objects: the intervals returned enclose the
components of every solution when the start boxes are right and plain for both right-hand sides. -/
theorem C52_start_objects_partial {R : Rnd ℚ} (hnr : ∀ x, R.nr x = x) (hm : 0 < m)
    (lp : LpSolver ℚ (PssRow n m) (Fin (m + 1))) (hlp : LpOK lp) (hc : LpComplete lp)
    (start : (Fin n → Iv ℚ) → Fin (m + 1) → FIv) (tol : ℚ) (maxiter : ℤ) (A : Fin n → Fin (m + 1) → Iv ℚ)
    (b : Fin n → Iv ℚ) (hA : ∀ i j, Ordinary (A i j)) (hb : ∀ i, Ordinary (b i))
    (hs : ∀ c : Fin n → Iv ℚ, (c = (fun i => (b i).rmul R 1) ∨ c = fun i => ((b i).rmul R 1).rmul R (-1)) →
      PlainStart (start c) ∧ StartOK (fun j => ivRat (start c j)) A c)
    (nu : Option (Fin (m + 1))) (X : List (Iv ℚ)) (h : pssF R lp start tol maxiter A b nu = .ok X)
    (x : Fin (m + 1) → ℚ) (hx : United A b x) :
    List.Forall₂ (fun k I => x k ∈ I) (nu.elim (List.finRange (m + 1)) fun k => [k]) X := by
  obtain ⟨p1, s1⟩ := hs _ (.inl rfl)
  obtain ⟨p2, s2⟩ := hs _ (.inr rfl)
  have e : pssF R lp start tol maxiter A b nu = pss R lp (fun c j => ivRat (start c j)) tol maxiter A b nu := by
    by_cases h1 : m = 1
    · subst h1
      have hG : ∀ V : Fin 2 → FIv, PlainStart V → ∀ nu : Fin 2,
          SmallEnd (V (nu.succAbove 0)).a ∧ SmallEnd (V (nu.succAbove 0)).b := by
        rintro V (hf | ⟨-, hs⟩) nu
        · obtain ⟨p, q, h1, h2⟩ := hf (nu.succAbove 0)
          rw [h1, h2]
          exact ⟨trivial, trivial⟩
        · exact hs _
      exact pssF_eq (viewInv_one hnr) lp start A b (hG _ p1) (hG _ p2) tol maxiter nu
    · have hG : ∀ V : Fin (m + 1) → FIv, PlainStart V → (∀ j, Ordinary (ivRat (V j))) → ∀ (nu : Fin (m + 1)) (j : Fin m),
          FloatOrZero (V (nu.succAbove j)) ∧ Ordinary (ivRat (V (nu.succAbove j))) := by
        rintro V (hf | ⟨h2, -⟩) ho nu j
        · exact ⟨.inl (hf _), ho _⟩
        · exact absurd h2 h1
      exact pssF_eq (viewInv_float hnr hm) lp start A b (hG _ p1 s1.1) (hG _ p2 s2.1) tol maxiter nu
  rw [e] at h
  exact C52_pss_partial hnr lp hlp hc (fun c j => ivRat (start c j)) tol maxiter A b hA hb s1 s2 nu X h x hx

/-! ## A start box with integer endpoints -/

/-- The equation `x₀ + x₂ = 0` in three unknowns. -/
def pssIntA : Fin 1 → Fin 3 → Iv ℚ := fun _ => ![⟨.classical, 1, 1⟩, ⟨.classical, 0, 0⟩, ⟨.classical, 1, 1⟩]

/-- The start box `([-10, 10], [1, 1], [0, 1])` with integer endpoints. -/
def pssIntV : Fin 3 → FIv :=
  ![⟨.classical, .int (-10), .int 10⟩, ⟨.classical, .int 1, .int 1⟩, ⟨.classical, .int 0, .int 1⟩]

/-- The box `([1, 1], [0.5, 1])` is read as `([1, 1], [0, 1])`. -/
theorem pssInt_view : viewFin ![⟨.classical, .int 1, .int 1⟩, ⟨.classical, .dbl (.fin (1/2)), .int 1⟩] =
    .ok ![⟨.classical, 1, 1⟩, ⟨.classical, 0, 1⟩] := by
  have h1 : arrA (List.ofFn ![(⟨.classical, .int 1, .int 1⟩ : FIv), ⟨.classical, .dbl (.fin (1/2)), .int 1⟩]) =
      .ok [.int 1, .int 0] := by decide +kernel
  have h2 : arrB (List.ofFn ![(⟨.classical, .int 1, .int 1⟩ : FIv), ⟨.classical, .dbl (.fin (1/2)), .int 1⟩]) =
      .ok [.int 1, .int 1] := by decide +kernel
  rw [viewFin, h1, h2]
  dsimp only
  congr 1
  funext i
  fin_cases i <;> simp [numRat]

/-- The linear programs give 0 or fail: the sign of the second component is taken to be 0. -/
theorem pssInt_omega (lp : LpSolver ℚ (PssRow 1 2) (Fin 3)) (hlp : LpOK lp) (V0 : Iv ℚ) :
    0 ≤ exactOmega Rnd.exact lp pssIntA (fun _ => ⟨.classical, 0, 0⟩) 0 V0 ![⟨.classical, 1, 1⟩, ⟨.classical, 0, 1⟩] := by
  have key : ∀ s v, pssLp Rnd.exact lp pssIntA (fun _ => ⟨.classical, 0, 0⟩) 0 ![⟨.classical, 1, 1⟩, ⟨.classical, 0, 1⟩] s =
      .ok v → v = 0 := by
    intro s v h
    unfold pssLp at h
    dsimp only at h
    cases hz : lp (fun j => if j = 0 then s else 0)
        (pssLpA Rnd.exact pssIntA ((0 : Fin 3).insertNth (α := fun _ => ℚ) s fun j : Fin 2 =>
          npSign ((![⟨.classical, 1, 1⟩, ⟨.classical, 0, 1⟩] : Fin 2 → Iv ℚ) j).a))
        (pssLpB (fun _ => ⟨.classical, 0, 0⟩) 0 ![⟨.classical, 1, 1⟩, ⟨.classical, 0, 1⟩]) with
    | error e => rw [hz] at h; cases h
    | ok z =>
      rw [hz] at h
      cases h
      have h1 := (hlp _ _ _ z hz).1 (.inl 0)
      have h2 := (hlp _ _ _ z hz).1 (.inr (.inl 0))
      simp [pssLpA, pssLpB, pssIntA, Fin.sum_univ_three, Iv.mid, Iv.rad, Iv.wid, Rnd.exact, npSign] at h1 h2
      rw [show (2 : Fin 3) = Fin.succ 1 from rfl, Fin.cons_succ] at h1 h2
      norm_num at h1 h2
      have h3 : z 0 * s = 0 := by linarith
      simpa using h3
  unfold exactOmega
  split
  · next v h => exact (key _ _ h).ge
  · split
    · next v h => exact (key _ _ h).ge
    · positivity

theorem pssInt_run (lp : LpSolver ℚ (PssRow 1 2) (Fin 3)) (hlp : LpOK lp) :
    pssAlgoF Rnd.exact lp pssIntA (fun _ => ⟨.classical, 0, 0⟩) pssIntV 0 (1 / 10 ^ 12) 0 = .ok (-1 / 2) := by
  set P : PssArg ℚ 1 2 := ⟨Rnd.exact, lp, pssIntA, fun _ => ⟨.classical, 0, 0⟩, fun j => ivRat (pssIntV j), 0, 1 / 10 ^ 12⟩
    with hP
  have hQ : (fun j : Fin 2 => pssIntV ((0 : Fin 3).succAbove j)) =
      ![⟨.classical, .int 1, .int 1⟩, ⟨.classical, .int 0, .int 1⟩] := by
    funext j; fin_cases j <;> rfl
  set Q : Fin 2 → FIv := ![⟨.classical, .int 1, .int 1⟩, ⟨.classical, .int 0, .int 1⟩] with hQd
  set Q1 : Fin 2 → FIv := ![⟨.classical, .int 1, .int 1⟩, ⟨.classical, .int 0, .dbl (.fin (1/2))⟩] with hQ1
  set Q2 : Fin 2 → FIv := ![⟨.classical, .int 1, .int 1⟩, ⟨.classical, .dbl (.fin (1/2)), .int 1⟩] with hQ2
  have hw : widView Rnd.exact Q = .ok ![0, 1] := by
    have h1 : npVectorizeNum (List.ofFn fun j => widNum Rnd.exact (Q j)) = .ok [.int 0, .int 1] := by
      rw [hQd]; decide +kernel
    rw [widView, h1]
    dsimp only
    congr 1
    funext i
    fin_cases i <;> simp [numRat]
  have hs : pssSplitF Rnd.exact Q 1 = (Q1, Q2) := by
    have e : (ivRat (Q 1)).mid Rnd.exact = 1 / 2 := by rw [hQd]; decide +kernel
    have ha : (ivRat (Q 1)).a = 0 := by rw [hQd]; decide +kernel
    unfold pssSplitF
    dsimp only
    rw [if_neg (by rw [ha]; simp), e]
    refine Prod.ext ?_ ?_ <;> funext j <;> fin_cases j
    · rfl
    · show mkFIv (.int 0) (.dbl (.fin (1 / 2))) = _
      decide +kernel
    · rfl
    · show mkFIv (.dbl (.fin (1 / 2))) (.int 1) = _
      decide +kernel
  have h1 : pssHalfF P 10 [] Q1 = .ok ([⟨Q1, -1 / 2, true⟩], some (-1 / 4)) := by
    have hz : ((List.finRange 2).any fun j => (ivRat (Q1 j)).containsNum 0) = true := by rw [hQ1]; decide +kernel
    have o1 : omegaFn P.R (P.V P.nu) (pssRes P.R P.A P.b P.nu fun j => ivRat (Q1 j)) (fun i => P.A i P.nu) =
        .ok (some (-1 / 2)) := by
      rw [hP, hQ1]; dsimp only; decide +kernel
    have o2 : omegaFn P.R (P.V P.nu) (pssResMid P.R P.A P.b P.nu fun j => ivRat (Q1 j)) (fun i => P.A i P.nu) =
        .ok (some (-1 / 4)) := by
      rw [hP, hQ1]; dsimp only; decide +kernel
    unfold pssHalfF
    dsimp only
    rw [if_pos hz, o1]
    dsimp only
    rw [if_pos (by norm_num), o2]
    rfl
  have h2 : ∃ L2 eta, pssHalfF P 10 [⟨Q1, -1 / 2, true⟩] Q2 = .ok (L2, eta) ∧
      pssPruneF 10 L2 (etaMin (some (-1 / 4)) eta) = (-1 / 4, [⟨Q1, -1 / 2, true⟩]) := by
    have hz : ¬ ((List.finRange 2).any fun j => (ivRat (Q2 j)).containsNum 0) = true := by rw [hQ2]; decide +kernel
    have hv : exactOmegaF P.R P.lp P.A P.b P.nu (P.V P.nu) Q2 = .ok (exactOmega Rnd.exact lp pssIntA
        (fun _ => ⟨.classical, 0, 0⟩) 0 (P.V 0) ![⟨.classical, 1, 1⟩, ⟨.classical, 0, 1⟩]) := by
      unfold exactOmegaF
      rw [hQ2, pssInt_view]
    have h0 := pssInt_omega lp hlp (P.V 0)
    generalize exactOmega Rnd.exact lp pssIntA (fun _ => ⟨.classical, 0, 0⟩) 0 (P.V 0)
      ![⟨.classical, 1, 1⟩, ⟨.classical, 0, 1⟩] = v at hv h0
    unfold pssHalfF
    dsimp only
    rw [if_neg hz, hv]
    dsimp only
    by_cases hq : v < 10
    · refine ⟨_, _, by rw [if_pos hq], ?_⟩
      have hi : pssInsertF ⟨Q2, v, false⟩ [⟨Q1, -1 / 2, true⟩] = [⟨Q1, -1 / 2, true⟩, ⟨Q2, v, false⟩] := by
        simp only [pssInsertF]
        rw [if_pos (by linarith)]
      rw [hi, etaMin, if_pos (by linarith), pssPruneF, if_pos (by norm_num)]
      congr 1
      rw [List.filter_cons_of_pos (by norm_num), List.filter_cons_of_neg (by simp; linarith), List.filter_nil]
    · refine ⟨_, _, by rw [if_neg hq], ?_⟩
      rw [etaMin, pssPruneF, if_pos (by norm_num)]
      congr 1
      rw [List.filter_cons_of_pos (by norm_num), List.filter_nil]
  obtain ⟨L2, eta, h2, h3⟩ := h2
  unfold pssAlgoF
  rw [if_neg (by norm_num)]
  dsimp only
  rw [hQ, ← hP]
  have e10 : numRat (pssIntV 0).b = 10 := by decide +kernel
  have em : ((0 : ℤ) + 1).toNat = 1 := rfl
  rw [e10, em, pssLoopF]
  have hw' : widView P.R Q = .ok ![0, 1] := hw
  rw [hw']
  have ham : argmaxOn ![(0 : ℚ), 1] (List.finRange 2) = some 1 := by decide +kernel
  dsimp only
  rw [ham]
  dsimp only
  rw [if_pos (show P.tol ≤ ![(0 : ℚ), 1] 1 by rw [hP]; norm_num)]
  have hs' : pssSplitF P.R Q 1 = (Q1, Q2) := hs
  rw [hs']
  simp only [List.eraseIdx_cons_zero]
  rw [h1]
  dsimp only
  rw [h2]
  dsimp only
  rw [h3]
  rfl

/-- C52 is false for start boxes with integer endpoints: for `x₀ + x₂ = 0` and `x0 = ([-10, 10], [1, 1], [0, 1])` the half
`([1, 1], [0.5, 1])` is read as `([1, 1], [0, 1])`, its sign as 0, and the lower bound -0.5 is returned although
`(-1, 1, 1)` is a solution in the start box. -/
theorem C52_objects_false : ¬ C52_objects_statement := by
  intro h
  have h1 := h 1 2 (pssLpEx 1 2) (lpChoice_ok _ _) (lpChoice_complete _ _) pssIntA (fun _ => ⟨.classical, 0, 0⟩)
    (by intro i j; fin_cases j <;> norm_num [pssIntA, Ordinary]) (fun _ => ⟨rfl, le_rfl⟩) pssIntV
    (by intro j; fin_cases j <;> norm_num [pssIntV, Ordinary, SmallEnd, ivRat, numRat])
    (by intro j; fin_cases j <;> norm_num [pssIntV, ivRat, numRat]) 0 (1 / 10 ^ 12) 0 (-1 / 2)
    (pssInt_run _ (lpChoice_ok _ _)) ![-1, 1, 1]
    (by
      refine ⟨fun _ => ![1, 0, 1], ?_, fun _ => 0, ?_, ?_⟩
      · intro i j; fin_cases j <;> norm_num [pssIntA, Iv.mem_def]
      · intro i; rw [Iv.mem_def]; norm_num
      · intro i; norm_num [apply, Fin.sum_univ_succ])
    (by intro j; fin_cases j <;> norm_num [pssIntV, ivRat, numRat, Iv.mem_def])
  norm_num at h1

/-- With float endpoints the same box is searched rightly: the start box is plain. -/
example : PlainStart (m := 2) (fun j => ⟨.classical, .dbl (.fin (ivRat (pssIntV j)).a), .dbl (.fin (ivRat (pssIntV j)).b)⟩) ∧
    ¬ PlainStart (m := 2) pssIntV := by
  refine ⟨.inl fun j => ⟨_, _, rfl, rfl⟩, ?_⟩
  rintro (h | ⟨h, -⟩)
  · obtain ⟨p, q, h1, -⟩ := h 0
    simp [pssIntV] at h1
  · omega

end IntvalPy
