import Verif.ModelRohnFull
import Verif.RunsRalg
import Verif.PropsRohn
import Verif.PropsRalgb
import Verif.PropsRalgbStep
import Verif.PropsRalgbConv

/-!
# C141: `Rohn` refuses a system as having no tolerable solution only if it has none
-/

set_option autoImplicit false
set_option linter.unusedSectionVars false

namespace IntvalPy
open Spec

variable {K : Type*} [Field K] [LinearOrder K] [IsStrictOrderedRing K]

/-- `x` solves the least squares problem with the midpoints, as the default starting point of `maximize` does:
the residual is orthogonal to the columns. -/
def NormalEq {n m : ℕ} (A : Fin n → Fin m → Iv K) (b : Fin n → Iv K) (x : Fin m → K) : Prop :=
  ∀ j, ∑ i, ((A i j).a + (A i j).b) / 2 * (∑ k, ((A i k).a + (A i k).b) / 2 * x k - ((b i).a + (b i).b) / 2) = 0

/-- The coordinates of tolerable solutions attain their bounds. -/
def TolAttained {n m : ℕ} (A : Fin n → Fin m → Iv K) (b : Fin n → Iv K) : Prop :=
  ∀ k, (∃ x, Tolerable A b x ∧ ∀ y, Tolerable A b y → x k ≤ y k) ∧
    ∃ x, Tolerable A b x ∧ ∀ y, Tolerable A b y → y k ≤ x k

/-- C141 in full, for one unknown and the default parameters of the maximisation: whenever the tolerable solutions form
a nonempty bounded set, `Rohn(A, b, consistency='tol')` returns a box. -/
def C141_statement : Prop :=
  ∀ (n : ℕ) (A : Fin n → Fin 1 → Iv ℚ) (b : Fin n → Iv ℚ), 0 < n → (∀ i j, Ordinary (A i j)) → (∀ i, Ordinary (b i)) →
    TolAttained A b → ∀ x0, NormalEq A b x0 → ∀ lp, LpOK lp → LpComplete lp → ∀ inv tol maxiter,
      ∃ X, rohn inv defaultPar1 (10 ^ 9) lp x0 A b tol maxiter "tol" = .ok X

/-- C141: what `Rohn` returns for each value of `consistency`.  For `"uni"` the box encloses the united solution set
when the iteration stopped by its tolerance; for `"tol"` a result is the exact hull of the tolerable solution set, and
this set is not empty; any other value raises an exception. -/
theorem C141_rohn {n m : ℕ} (hn : 0 < n) (hm : 0 < m) (inv : (Fin m → Fin m → K) → Except Err (Fin m → Fin m → K))
    (P : RalgPar K m) (big : K) (lp : LpSolver K (Fin n ⊕ Fin n ⊕ (Fin m ⊕ Fin m)) (Fin m ⊕ Fin m)) (hlp : LpOK lp)
    (x0 : Fin m → K) (A : Fin n → Fin m → Iv K) (b : Fin n → Iv K) (hA : ∀ i j, Ordinary (A i j))
    (hb : ∀ i, Ordinary (b i)) (tol : K) (ht : 0 ≤ tol) (maxiter : ℤ) :
    (∀ X, rohn inv P big lp x0 A b tol maxiter "uni" = .ok X → ∃ Y e, rohnUni inv A b tol maxiter = .ok (Y, e) ∧
      X = List.ofFn Y ∧ (∀ i, Ordinary (Y i)) ∧
      (∀ err, e = some err → err < tol → ∀ x, United A b x → InVec x Y)) ∧
    (∀ X, rohn inv P big lp x0 A b tol maxiter "tol" = .ok X → (∃ x, Tolerable A b x) ∧
      List.Forall₂ (fun k Z => Ordinary Z ∧ IsRange Z (fun t => ∃ x, Tolerable A b x ∧ x k = t)) (List.finRange m) X) ∧
    (∀ c, c ≠ "uni" → c ≠ "tol" → rohn inv P big lp x0 A b tol maxiter c = .error .exception) := by
  refine ⟨fun X h => ?_, fun X h => ?_, fun c h1 h2 => by rw [rohn, if_neg h1, if_neg h2]⟩
  · simp only [rohn, if_true] at h
    cases hr : rohnUni inv A b tol maxiter with
    | error e => rw [hr] at h; cases h
    | ok p =>
      obtain ⟨Y, e⟩ := p
      rw [hr] at h
      cases h
      exact ⟨Y, e, rfl, rfl, fun i => C42_ordinary inv A b tol maxiter Y e hr i, fun err he hlt x hx =>
        C42_rohn_uni hn inv A b tol ht maxiter hA hb Y err (by rw [hr, he]) hlt x hx⟩
  · rw [rohn, if_neg (by decide), if_pos rfl, rohnTolFull] at h
    cases ho : RecFun.tol.maximize P big (recData A b fun _ => 1) none x0 with
    | error e => rw [ho] at h; cases h
    | ok o =>
      rw [ho] at h
      dsimp only at h
      have h1 := C43_rohn_tol lp hlp o.fr A b hA none X h
      refine ⟨?_, h1⟩
      have hne : ¬ o.fr < 0 := by
        intro hlt
        rw [rohnTol, if_pos hlt] at h; cases h
      refine ⟨o.xr, (C36_certificate P big hn hm A b (fun _ => 1) (fun _ => one_pos) (recData A b fun _ => 1).infA
        (recData A b fun _ => 1).supA none (by simp) x0 hA o).1 ?_ (not_lt.1 hne)⟩
      exact ho

/-- C141, partial: `Rohn(A, b, consistency='tol')` returns a box when the tolerable set is bounded and the starting
point of the maximisation is tolerable, or more generally when the maximisation finds a tolerable point; if it is
refused, none of the points visited is tolerable. -/
theorem C141_rohn_partial {n m : ℕ} (hn : 0 < n) (hm : 0 < m)
    (inv : (Fin m → Fin m → K) → Except Err (Fin m → Fin m → K)) (P : RalgPar K m) (big : K)
    (lp : LpSolver K (Fin n ⊕ Fin n ⊕ (Fin m ⊕ Fin m)) (Fin m ⊕ Fin m)) (hlp : LpComplete lp)
    (x0 : Fin m → K) (A : Fin n → Fin m → Iv K) (b : Fin n → Iv K) (hA : ∀ i j, Ordinary (A i j)) (hB : TolAttained A b)
    (tol : K) (maxiter : ℤ) :
    ∃ o, RecFun.tol.maximize P big (recData A b fun _ => 1) none x0 = .ok o ∧
      ((∃ x ∈ o.evals, Tolerable A b x) → ∃ X, rohn inv P big lp x0 A b tol maxiter "tol" = .ok X) ∧
      ((∀ x ∈ o.evals, ¬ Tolerable A b x) → rohn inv P big lp x0 A b tol maxiter "tol" = .error .exception) ∧
      (Tolerable A b x0 → ∃ X, rohn inv P big lp x0 A b tol maxiter "tol" = .ok X) := by
  obtain ⟨o, ho, hv, _⟩ := C36_maximize .tol P big hn hm A b (fun _ => 1) (recData A b fun _ => 1).infA
    (recData A b fun _ => 1).supA x0 hA
  have ho' : RecFun.tol.maximize P big (recData A b fun _ => 1) none x0 = .ok o := ho
  choose f g h1 h2 using fun x => C33_objective_is_minus_value .tol hn hm A b (fun _ => 1) x
    (recData A b fun _ => 1).infA (recData A b fun _ => 1).supA hA
  have htot : ∀ x, RecFun.tol.objTotal (recData A b fun _ => 1) none x = (f x, g x) := by
    intro x
    have := h1 x
    rw [RecFun.objTotal, RecFun.objective]
    rw [show RecFun.tol.calcfg (recData A b fun _ => 1) x = .ok (f x, g x) from this]
  obtain ⟨⟨q1, q2, q3, q4⟩, _⟩ := C35_ralgb5 P big (RecFun.tol.objTotal (recData A b fun _ => 1) none) x0
  have hoeq : o = { ralgb5 P big (RecFun.tol.objTotal (recData A b fun _ => 1) none) x0 with
      fr := -(ralgb5 P big (RecFun.tol.objTotal (recData A b fun _ => 1) none) x0).fr } := by
    have := ho'
    rw [RecFun.maximize, RecFun.objective,
      show RecFun.tol.calcfg (recData A b fun _ => 1) x0 = .ok (f x0, g x0) from h1 x0] at this
    exact (Except.ok.inj this).symm
  have tolIff : ∀ x, 0 ≤ -f x ↔ Tolerable A b x := by
    intro x
    obtain ⟨v, h3, h4⟩ := C30_tol_iff_tolerable hn hm A b (fun _ => 1) x hA fun _ => one_pos
    have := h2 x
    change tolValue Rnd.exact A b _ x = _ at this
    rw [this] at h3
    cases h3
    exact h4
  have hfull : rohn inv P big lp x0 A b tol maxiter "tol" = rohnTol lp o.fr A b none := by
    rw [rohn, if_neg (by decide), if_pos rfl, rohnTolFull, ho']
  refine ⟨o, ho', ?_, ?_, ?_⟩
  · rintro ⟨x, hx, hT⟩
    rw [hfull]
    refine C43_rohn_tol_returns lp hlp o.fr ?_ A b hA none (fun k => (hB k).1) (fun k => (hB k).2)
    rw [hoeq] at hx ⊢
    have h3 := q3 x hx
    rw [htot] at h3
    have h4 := (tolIff x).mpr hT
    dsimp only at h3 ⊢
    linarith
  · intro hno
    rw [hfull, rohnTol, if_pos]
    by_contra hge
    have hcert := (C36_certificate P big hn hm A b (fun _ => 1) (fun _ => one_pos) (recData A b fun _ => 1).infA
        (recData A b fun _ => 1).supA none (by simp) x0 hA o).1 ho (not_lt.1 hge)
    refine hno o.xr ?_ hcert
    rw [hoeq]
    exact q1
  · intro hT
    rw [hfull]
    refine C43_rohn_tol_returns lp hlp o.fr ?_ A b hA none (fun k => (hB k).1) (fun k => (hB k).2)
    rw [hoeq]
    have h4 := (tolIff x0).mpr hT
    rw [htot] at q4
    dsimp only at q4 ⊢
    linarith

/-! ## A system that is refused although it has a solution -/

/-- The matrix of `x = [-1, 1]`, `2 x = [2, 6]`. -/
def refusedA : Fin 2 → Fin 1 → Iv ℚ := ![![⟨.classical, 1, 1⟩], ![⟨.classical, 2, 2⟩]]

/-- Its right-hand side. -/
def refusedB : Fin 2 → Iv ℚ := ![⟨.classical, -1, 1⟩, ⟨.classical, 2, 6⟩]

/-- The default starting point of the maximisation for this system. -/
def refusedX0 : Fin 1 → ℚ := ![8 / 5]

/-- The run of `Tol.maximize` with strict evaluation. -/
def refusedRun : ℚ × ℕ :=
  let f := RecFun.tol.objTotal (recData refusedA refusedB fun _ => 1) none
  let o := RunsRalg.ralgS defaultPar1 f 2001 ⟨1, fun i j => if i = j then 1 else 0, List.replicate 30 (10 ^ 9), refusedX0,
    refusedX0, (f refusedX0).1, (f refusedX0).2, 0, 1, [refusedX0]⟩
  (-o.fr, o.ccode)

theorem refusedRun_eq : refusedRun.1 < 0 ∧ -(1 / 10 ^ 12) < refusedRun.1 ∧ refusedRun.2 = 3 := by
  decide +kernel

/-- `Tol.maximize` on this system is that run. -/
theorem refused_maximize : ∃ o, RecFun.tol.maximize defaultPar1 (10 ^ 9) (recData refusedA refusedB fun _ => 1) none
    refusedX0 = .ok o ∧ o.fr = refusedRun.1 ∧ o.ccode = refusedRun.2 := by
  have h1 : (RecFun.tol.objective (recData refusedA refusedB fun _ => 1) none refusedX0).toOption.isSome := by
    decide +kernel
  have h2 : ¬ defaultPar1.norm (RecFun.tol.objTotal (recData refusedA refusedB fun _ => 1) none refusedX0).2 <
      defaultPar1.tolg := by decide +kernel
  unfold RecFun.maximize
  cases ho : RecFun.tol.objective (recData refusedA refusedB fun _ => 1) none refusedX0 with
  | error e => rw [ho] at h1; simp [Except.toOption] at h1
  | ok r =>
    refine ⟨_, rfl, ?_, ?_⟩
    · simp only [refusedRun, ralgb5, RunsRalg.ralgS_eq, if_neg h2]; rfl
    · simp only [refusedRun, ralgb5, RunsRalg.ralgS_eq, if_neg h2]; rfl

/-- `x = 1` is the only tolerable solution. -/
theorem refused_tolerable (x : Fin 1 → ℚ) : Tolerable refusedA refusedB x ↔ x 0 = 1 := by
  constructor
  · intro h
    have h1 := h (fun i j => (refusedA i j).a) (fun i j => ⟨le_refl _, by revert i j; decide +kernel⟩)
    have a0 := (h1 0)
    have a1 := (h1 1)
    norm_num [Spec.apply, refusedA, refusedB, Iv.mem_def] at a0 a1
    linarith [a0.2, a1.1]
  · intro hx M hM i
    have hM0 := hM 0 0
    have hM1 := hM 1 0
    norm_num [refusedA, Iv.mem_def] at hM0 hM1
    fin_cases i
    · norm_num [Spec.apply, refusedB, Iv.mem_def, hx]
      constructor <;> linarith [hM0.1, hM0.2]
    · norm_num [Spec.apply, refusedB, Iv.mem_def, hx]
      constructor <;> linarith [hM1.1, hM1.2]

/-- The system meets the hypotheses of `C141_statement`. -/
theorem refused_hyps : (∀ i j, Ordinary (refusedA i j)) ∧ (∀ i, Ordinary (refusedB i)) ∧ TolAttained refusedA refusedB ∧
    NormalEq refusedA refusedB refusedX0 := by
  refine ⟨?_, ?_, fun k => ?_, ?_⟩
  · unfold Ordinary; decide +kernel
  · unfold Ordinary; decide +kernel
  · obtain rfl : k = 0 := Subsingleton.elim _ _
    have h1 : Tolerable refusedA refusedB (fun _ => 1) := (refused_tolerable _).mpr rfl
    exact ⟨⟨_, h1, fun y hy => by rw [(refused_tolerable y).mp hy]⟩, ⟨_, h1, fun y hy => by rw [(refused_tolerable y).mp hy]⟩⟩
  · intro j
    obtain rfl : j = 0 := Subsingleton.elim _ _
    norm_num [refusedA, refusedB, refusedX0, Fin.sum_univ_two, Fin.sum_univ_one]

/-- C141 is false of the code: `Rohn(Interval([[[1, 1]], [[2, 2]]]), Interval([[-1, 1], [2, 6]]), consistency='tol')` raises
the exception for an empty set although `x = 1` is a tolerable solution.  The maximum of the functional is zero, and the
maximisation stops with a value between `-1e-12` and zero. -/
theorem C141_false : (∀ lp inv tol maxiter, rohn inv defaultPar1 (10 ^ 9) lp refusedX0 refusedA refusedB tol maxiter "tol" =
      .error .exception) ∧ Tolerable refusedA refusedB (fun _ => 1) ∧ ¬ C141_statement := by
  have main : ∀ lp inv tol maxiter, rohn inv defaultPar1 (10 ^ 9) lp refusedX0 refusedA refusedB tol maxiter "tol" =
      .error .exception := by
    intro lp inv tol maxiter
    obtain ⟨o, h1, h2, _⟩ := refused_maximize
    rw [rohn, if_neg (by decide), if_pos rfl, rohnTolFull, h1]
    dsimp only
    rw [rohnTol, if_pos (by rw [h2]; exact refusedRun_eq.1)]
  refine ⟨main, (refused_tolerable _).mpr rfl, fun h => ?_⟩
  obtain ⟨h1, h2, h3, h4⟩ := refused_hyps
  obtain ⟨X, hX⟩ := h 2 refusedA refusedB (by norm_num) h1 h2 h3 refusedX0 h4 (lpChoice ℚ _ _) (lpChoice_ok _ _)
    (lpChoice_complete _ _) (fun _ => .error .linAlgError) 0 0
  rw [main] at hX
  cases hX

/-- The default parameters are those of `C110` and `C111`. -/
theorem defaultPar1_euclidean : Euclidean defaultPar1 where
  nonneg v := abs_nonneg _
  sq v := by simp [defaultPar1, Fin.sum_univ_one]
  unit v _ i := by
    obtain rfl : i = 0 := Subsingleton.elim _ _
    rfl

/-- The hypotheses of `C141_rohn_partial` and `C141_rohn` hold for `[1, 2] x = [0, 4]`, whose tolerable solutions are
`[0, 2]`; the default starting point `4/3` is one of them. -/
example : TolAttained (fun _ _ => ⟨.classical, 1, 2⟩ : Fin 1 → Fin 1 → Iv ℚ) (fun _ => ⟨.classical, 0, 4⟩) ∧
    Tolerable (fun _ _ => ⟨.classical, 1, 2⟩ : Fin 1 → Fin 1 → Iv ℚ) (fun _ => ⟨.classical, 0, 4⟩) (fun _ => 4 / 3) ∧
    NormalEq (fun _ _ => ⟨.classical, 1, 2⟩ : Fin 1 → Fin 1 → Iv ℚ) (fun _ => ⟨.classical, 0, 4⟩) (fun _ => 4 / 3) := by
  have key : ∀ x : Fin 1 → ℚ, Tolerable (fun _ _ => ⟨.classical, 1, 2⟩ : Fin 1 → Fin 1 → Iv ℚ)
      (fun _ => ⟨.classical, 0, 4⟩) x ↔ 0 ≤ x 0 ∧ x 0 ≤ 2 := by
    intro x
    constructor
    · intro h
      have h1 := h (fun _ _ => 1) (fun i j => by norm_num [Iv.mem_def]) 0
      have h2 := h (fun _ _ => 2) (fun i j => by norm_num [Iv.mem_def]) 0
      norm_num [Spec.apply, Iv.mem_def] at h1 h2
      constructor <;> linarith [h1.1, h2.2]
    · rintro ⟨h1, h2⟩ M hM i
      have := hM 0 0
      obtain rfl : i = 0 := Subsingleton.elim _ _
      norm_num [Spec.apply, Iv.mem_def] at this ⊢
      constructor <;> nlinarith [this.1, this.2]
  refine ⟨fun k => ?_, (key _).mpr (by norm_num), fun j => by norm_num⟩
  obtain rfl : k = 0 := Subsingleton.elim _ _
  exact ⟨⟨fun _ => 0, (key _).mpr (by norm_num), fun y hy => ((key y).mp hy).1⟩,
    ⟨fun _ => 2, (key _).mpr (by norm_num), fun y hy => ((key y).mp hy).2⟩⟩

/-- The default arguments of `ralgb5`, as decimal numbers. -/
example : defaultPar1.tolx = 1e-12 ∧ defaultPar1.tolg = 1e-12 ∧ defaultPar1.tolf = 1e-12 ∧ defaultPar1.maxiter = 2000 ∧
    defaultPar1.alpha = 2.3 ∧ defaultPar1.nsims = 30 ∧ defaultPar1.h0 = 1 ∧ defaultPar1.nh = 3 ∧
    defaultPar1.q1 = 0.9 ∧ defaultPar1.q2 = 1.1 := by
  refine ⟨?_, ?_, ?_, rfl, ?_, rfl, rfl, rfl, ?_, ?_⟩ <;> norm_num [defaultPar1]

end IntvalPy
