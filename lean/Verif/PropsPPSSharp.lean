import Verif.PropsPPS
import Mathlib.Tactic.LinearCombination

/-!
# PPS: sharpness of the bounds (C80) and exceptions (C60)
-/

set_option autoImplicit false
set_option linter.unusedSectionVars false

namespace IntvalPy
open Spec

variable {K : Type*} [Field K] [LinearOrder K] [IsStrictOrderedRing K]

/-! ## C80: the bounds of PPS are sharp up to the tolerance -/

/-- The value is the component `nu` of a solution. -/
def Attained {n : ℕ} (A : Fin n → Fin n → Iv K) (b : Fin n → Iv K) (nu : Fin n) (v : K) : Prop :=
  ∃ x, United A b x ∧ x nu = v

section
variable {n : ℕ} {P : PpsArg K n} {A : Fin n → Fin n → Iv K} {b : Fin n → Iv K}

/-- What every element of the list satisfies. -/
def ElOK (P : PpsArg K n) (A : Fin n → Fin n → Iv K) (b : Fin n → Iv K) (e : PpsEl K n) : Prop :=
  Subsystem A b e.Q e.r ∧ P.hbr e.Q e.r = .ok e.x ∧ e.gamma = (e.x P.nu).a

theorem attained_sub {Q : Fin n → Fin n → Iv K} {r : Fin n → Iv K} (hs : Subsystem A b Q r) {nu : Fin n} {v : K}
    (h : Attained Q r nu v) : Attained A b nu v := by
  obtain ⟨x, ⟨Q', hQ, r', hr, hx⟩, rfl⟩ := h
  refine ⟨x, ⟨Q', fun i j => ?_, r', fun i => ?_, hx⟩, rfl⟩
  · have h1 := Iv.mem_def.1 (hQ i j)
    exact Iv.mem_def.2 ⟨(hs.1 i j).2.1.trans h1.1, h1.2.trans (hs.1 i j).2.2⟩
  · have h1 := Iv.mem_def.1 (hr i)
    exact Iv.mem_def.2 ⟨(hs.2 i).2.1.trans h1.1, h1.2.trans (hs.2 i).2.2⟩

theorem mid_mem_exact (X : Iv K) (h : X.a ≤ X.b) : X.mid Rnd.exact ∈ X := by
  rw [Iv.mem_def]
  simp only [Iv.mid, Rnd.exact_nr, id]
  constructor <;> linarith

theorem split_upper (hR : P.R = Rnd.exact) (hS : PpsSolveOK P.solve) (l0 : PpsEl K n) (omega : Option K) (ind fl : Bool)
    (Q' : Fin n → Fin n → Iv K) (r' : Fin n → Iv K) (st : PpsProp n) (rest : List (PpsEl K n)) (p : List (PpsEl K n) × K)
    (hs : SortedGamma rest) (h : ppsSplit P l0 omega ind fl Q' r' st rest = .ok p) (hsub : Subsystem A b Q' r')
    (hr : ∀ f ∈ rest, ElOK P A b f) : (∀ f ∈ p.1, ElOK P A b f) ∧ Attained A b P.nu p.2 := by
  obtain ⟨vx, mn, hvx, hmn, hp2, hc⟩ := split_inv _ _ _ _ _ _ _ _ _ h
  constructor
  · rcases hc with ⟨-, hp⟩ | ⟨-, tags, Z, -, -, hp⟩
    · rw [hp]; exact hr
    · obtain ⟨-, h2⟩ := ppsInsert_spec (⟨(vx P.nu).a, Q', r', Z, vx, tags⟩ : PpsEl K n) l0 rest hs
      rw [hp]
      intro f hf
      rcases (h2 f).1 hf with rfl | hf
      · exact ⟨hsub, hvx, rfl⟩
      · exact hr f hf
  · rw [hp2]
    refine attained_sub hsub ⟨mn, ⟨_, fun i j => ?_, _, fun i => ?_, hS _ _ _ hmn⟩, rfl⟩
    · rw [hR]; exact mid_mem_exact _ (hsub.1 i j).1.2
    · rw [hR]; exact mid_mem_exact _ (hsub.2 i).1.2

theorem two_upper (hR : P.R = Rnd.exact) (hS : PpsSolveOK P.solve) (l0 : PpsEl K n) (omega : Option K) (fl : Bool)
    (Q1 Q2 : Fin n → Fin n → Iv K) (r1 r2 : Fin n → Iv K) (st1 st2 : PpsProp n) (rest : List (PpsEl K n))
    (p : List (PpsEl K n) × K) (hs : SortedGamma rest) (h : ppsTwo P l0 omega fl Q1 Q2 r1 r2 st1 st2 rest = .ok p)
    (h1 : Subsystem A b Q1 r1) (h2 : Subsystem A b Q2 r2) (hr : ∀ f ∈ rest, ElOK P A b f) :
    (∀ f ∈ p.1, ElOK P A b f) ∧ Attained A b P.nu p.2 := by
  unfold ppsTwo at h
  split at h
  · cases h
  rename_i p1 hp1
  split at h
  · cases h
  rename_i p2 hp2
  cases h
  obtain ⟨a1, a2⟩ := split_list _ _ _ _ _ _ _ _ _ hs hp1
  obtain ⟨u1, u2⟩ := split_upper hR hS _ _ _ _ _ _ _ _ _ hs hp1 h1 hr
  obtain ⟨w1, w2⟩ := split_upper hR hS _ _ _ _ _ _ _ _ _ a1 hp2 h2 u1
  refine ⟨w1, ?_⟩
  dsimp only
  rcases min_choice p1.2 p2.2 with e | e <;> rw [e]
  · exact u2
  · exact w2

theorem monotone_sub (e : PpsEl K n) (he : Subsystem A b e.Q e.r) :
    Subsystem A b (ppsMonotone P e).Q (ppsMonotone P e).r := by
  have key : ∀ (X Z : Iv K) (c d : Bool), Within X Z →
      Within (if d then pointIv (if c then pointIv X.a else X).b else (if c then pointIv X.a else X)) Z := by
    intro X Z c d h
    cases c <;> cases d
    · exact h
    · exact (inside_point h).2
    · exact (inside_point h).1
    · exact (inside_point h).1
  exact ⟨fun i j => key _ _ _ _ (he.1 i j), fun i => key _ _ _ _ (he.2 i)⟩

theorem body_upper (hR : P.R = Rnd.exact) (hS : PpsSolveOK P.solve) (omega : Option K) (l : PpsEl K n)
    (rest : List (PpsEl K n)) (p : List (PpsEl K n) × K) (hs : SortedGamma rest) (h : ppsBody P omega l rest = .ok p)
    (hl : Subsystem A b l.Q l.r) (hr : ∀ f ∈ rest, ElOK P A b f) :
    (∀ f ∈ p.1, ElOK P A b f) ∧ Attained A b P.nu p.2 := by
  unfold ppsBody at h
  dsimp only at h
  have g := monotone_sub (P := P) l hl
  split at h
  · rename_i ij i2 _ _
    have slo := setEntry_inside g.1 ij.1 ij.2 _ (inside_point (g.1 ij.1 ij.2)).1
    have shi := setEntry_inside g.1 ij.1 ij.2 _ (inside_point (g.1 ij.1 ij.2)).2
    have tlo := setComp_inside g.2 i2 _ (inside_point (g.2 i2)).1
    have thi := setComp_inside g.2 i2 _ (inside_point (g.2 i2)).2
    unfold ppsDescend at h
    dsimp only at h
    split_ifs at h
    · exact two_upper hR hS _ _ _ _ _ _ _ _ _ _ _ hs h ⟨slo, g.2⟩ ⟨shi, g.2⟩ hr
    · exact split_upper hR hS _ _ _ _ _ _ _ _ _ hs h ⟨slo, g.2⟩ hr
    · exact split_upper hR hS _ _ _ _ _ _ _ _ _ hs h ⟨shi, g.2⟩ hr
    · exact two_upper hR hS _ _ _ _ _ _ _ _ _ _ _ hs h ⟨g.1, tlo⟩ ⟨g.1, thi⟩ hr
    · exact split_upper hR hS _ _ _ _ _ _ _ _ _ hs h ⟨g.1, thi⟩ hr
    · exact split_upper hR hS _ _ _ _ _ _ _ _ _ hs h ⟨g.1, tlo⟩ hr
  · cases h

theorem ppsExact_iff (Q : Fin n → Fin n → Iv K) : ppsExact Rnd.exact Q = true ↔ ∀ i j, (Q i j).a = (Q i j).b := by
  unfold ppsExact
  rw [List.all_eq_true]
  constructor
  · intro h i j
    have := h (i, j) (mem_allPairs _)
    simp only [Iv.rad, Iv.wid, Rnd.exact_nr, id, decide_eq_true_eq] at this
    linarith
  · intro h ij _
    simp only [Iv.rad, Iv.wid, Rnd.exact_nr, id, decide_eq_true_eq, h]
    ring

theorem loop_upper (hR : P.R = Rnd.exact) (hS : PpsSolveOK P.solve) (ht : 0 ≤ P.tol)
    (hp : ∀ Q r X, Subsystem A b Q r → (∀ i j, (Q i j).a = (Q i j).b) → P.hbr Q r = .ok X → Attained Q r P.nu (X P.nu).a)
    (k : ℕ) (omega ocenka : Option K) (l : PpsEl K n) (rest : List (PpsEl K n)) (v : K × ℕ)
    (h1 : ∀ u, ocenka = some u → u = l.gamma) (h2 : SortedGamma rest) (h3 : ∀ f ∈ l :: rest, ElOK P A b f)
    (h4 : ∀ w, omega = some w → Attained A b P.nu w)
    (h : ppsLoop P k omega ocenka l rest = .ok v) (hv : 0 < v.2) : ∃ w, Attained A b P.nu w ∧ w ≤ v.1 + P.tol := by
  induction k generalizing omega ocenka l rest with
  | zero =>
    unfold ppsLoop at h
    split at h
    · cases h
    · cases h; cases hv
  | succ k ih =>
    have hl := h3 l List.mem_cons_self
    unfold ppsLoop at h
    split_ifs at h with hc
    · split at h
      · cases h
      rename_i p hp
      obtain ⟨s1, s2⟩ := body_spec _ _ _ _ h2 hp
      obtain ⟨u1, u2⟩ := body_upper hR hS _ _ _ _ h2 hp hl.1 fun f hf => h3 f (List.mem_cons_of_mem _ hf)
      have hw : Attained A b P.nu (ppsOmega p.2 omega) := by
        cases omega with
        | none => exact u2
        | some w =>
          simp only [ppsOmega]
          split_ifs
          · exact u2
          · exact h4 w rfl
      dsimp only at h
      have hf := fun e => @List.mem_filter _ (fun e : PpsEl K n => decide (e.gamma ≤ ppsOmega p.2 omega)) p.1 e
      have sf : SortedGamma (p.1.filter fun e => decide (e.gamma ≤ ppsOmega p.2 omega)) := List.Pairwise.filter _ s1
      generalize (p.1.filter fun e => decide (e.gamma ≤ ppsOmega p.2 omega)) = L at h hf sf
      cases L with
      | nil =>
        cases h
        exact ⟨_, hw, by dsimp only; linarith⟩
      | cons l' rest' =>
        refine ih (some (ppsOmega p.2 omega)) (some l'.gamma) l' rest' ?_ (List.pairwise_cons.1 sf).2
          (fun f hf' => u1 f ((hf f).1 hf').1) ?_ h
        · intro u hu; cases hu; rfl
        · intro w hw'; cases hw'; exact hw
    · split at h
      · cases h
      rename_i u
      cases h
      have hu := h1 u rfl
      dsimp only
      simp only [Bool.and_eq_true, Bool.not_eq_true', not_and_or, Bool.not_eq_false, Bool.not_eq_true] at hc
      rcases hc with hc | hc
      · rw [hR, ppsExact_iff] at hc
        refine ⟨_, attained_sub hl.1 (hp l.Q l.r l.x hl.1 hc hl.2.1), ?_⟩
        rw [hu, hl.2.2]
        linarith
      · cases omega with
        | none => cases hc
        | some w =>
          simp only [ppsFar, decide_eq_false_iff_not, not_lt] at hc
          have := (abs_le.1 hc).2
          exact ⟨w, h4 w rfl, by rw [hu]; linarith⟩

end

/-- C80 (any number of unknowns, exact arithmetic, exact inversion routine and linear solver): a value returned by
`algo(nu)` before the limit on the passes exceeds the component `nu` of some solution by no more than `tol` below: there is
a solution with `x nu ≤ v + tol`. -/
theorem C80_attained {n : ℕ} (inv : (Fin n → Fin n → K) → Except Err (Fin n → Fin n → K)) (hinv : InvExact inv)
    (solve : (Fin n → Fin n → K) → (Fin n → K) → Except Err (Fin n → K)) (hS : PpsSolveOK solve) (tol : K) (ht : 0 ≤ tol)
    (fuel : ℕ) (nu : Fin n) (maxiter : ℤ) (A invA : Fin n → Fin n → Iv K) (b : Fin n → Iv K) (hA : ∀ i j, Ordinary (A i j))
    (hb : ∀ i, Ordinary (b i)) (v : K) (k : ℕ)
    (h : ppsRun (ppsArg Rnd.exact inv solve tol fuel nu) maxiter A invA b = .ok (v, k)) (hk : 0 < k) :
    ∃ x, United A b x ∧ x nu ≤ v + tol := by
  unfold ppsRun at h
  split at h
  · cases h
  rename_i vx hvx
  obtain ⟨w, ⟨x, hx, rfl⟩, hw⟩ := loop_upper (P := ppsArg Rnd.exact inv solve tol fuel nu) (A := A) (b := b) rfl hS ht
    (fun Q r X hs hp hX => by
      obtain ⟨x, hx, e⟩ := (C44_hbr_point inv hinv Q r X (fun i j => (hs.1 i j).1) (fun i => (hs.2 i).1) hp hX nu).2.1
      exact ⟨x, hx, e.symm⟩) _ none none _ _ _ (fun _ h => by cases h)
    List.Pairwise.nil (fun f hf => by
      cases List.mem_singleton.1 hf
      exact ⟨⟨fun i j => ⟨hA i j, le_refl _, le_refl _⟩, fun i => ⟨hb i, le_refl _, le_refl _⟩⟩, hvx, rfl⟩)
    (fun _ h => by cases h) h hk
  exact ⟨x, hx, hw⟩

theorem united_plus_exact {n : ℕ} (A : Fin n → Fin n → Iv K) (b : Fin n → Iv K) (hb : ∀ i, Ordinary (b i)) (x : Fin n → K) :
    (United A (ppsPlus Rnd.exact b) x → United A b x) ∧ (United A (ppsMinus Rnd.exact b) x → United A b fun k => -x k) := by
  have e1 : ∀ i t, t ∈ ppsPlus Rnd.exact b i → t ∈ b i := by
    intro i t ht
    rw [Iv.mem_def] at ht ⊢
    simpa only [ppsPlus, Iv.rmul, (hb i).1, Rnd.exact_dn, Rnd.exact_up, id, one_mul, min_eq_left (hb i).2,
      max_eq_right (hb i).2] using ht
  have e2 : ∀ i t, t ∈ ppsMinus Rnd.exact b i → -t ∈ b i := by
    intro i t ht
    rw [Iv.mem_def] at ht ⊢
    have hn : -(b i).b ≤ -(b i).a := neg_le_neg (hb i).2
    simp only [ppsMinus, ppsPlus, Iv.rmul, (hb i).1, Rnd.exact_dn, Rnd.exact_up, id, one_mul, min_eq_left (hb i).2,
      max_eq_right (hb i).2, neg_one_mul, min_eq_right hn, max_eq_left hn] at ht
    constructor <;> linarith [ht.1, ht.2]
  constructor
  · rintro ⟨Q, hQ, r, hr, hx⟩
    exact ⟨Q, hQ, r, fun i => e1 i _ (hr i), hx⟩
  · rintro ⟨Q, hQ, r, hr, hx⟩
    refine ⟨Q, hQ, fun i => -r i, fun i => e2 i _ (hr i), fun i => ?_⟩
    show apply Q (fun k => -x k) i = -r i
    rw [← hx i, apply, apply, ← Finset.sum_neg_distrib]
    exact Finset.sum_congr rfl fun j _ => by ring

/-- The search for the component `nu` is not ended by the limit on the passes. -/
def EndsEarly {n : ℕ} (P : PpsArg K n) (maxiter : ℤ) (A invA : Fin n → Fin n → Iv K) (b : Fin n → Iv K) : Prop :=
  ∀ p, ppsRun P maxiter A invA b = .ok p → 0 < p.2

/-- The full property C80: in exact arithmetic, with an exact inversion routine and an exact linear solver, and when the limit
on the passes is not reached, every component of the returned box is an optimal enclosure up to `tol`: it contains the
component of all solutions, and there are solutions no further than `tol` from its ends. -/
def C80_statement : Prop :=
  ∀ (n : ℕ) (inv : (Fin n → Fin n → K) → Except Err (Fin n → Fin n → K))
    (solve : (Fin n → Fin n → K) → (Fin n → K) → Except Err (Fin n → K)), InvExact inv → PpsSolveOK solve →
    ∀ (tol : K) (fuel : ℕ) (maxiter : ℤ) (A invA : Fin n → Fin n → Iv K) (b : Fin n → Iv K) (X : List (Iv K)),
      0 ≤ tol → (∀ i j, Ordinary (A i j)) → (∀ i, Ordinary (b i)) → Regular A → ppsInverse Rnd.exact A = .ok invA →
      (∀ k, EndsEarly (ppsArg Rnd.exact inv solve tol fuel k) maxiter A invA (ppsPlus Rnd.exact b) ∧
        EndsEarly (ppsArg Rnd.exact inv solve tol fuel k) maxiter A invA (ppsMinus Rnd.exact b)) →
      pps Rnd.exact inv solve tol fuel maxiter A b none = .ok X →
      List.Forall₂ (fun Z k => (∀ x, United A b x → x k ∈ Z) ∧ (∃ x, United A b x ∧ x k ≤ Z.a + tol) ∧
        ∃ x, United A b x ∧ Z.b - tol ≤ x k) X (List.finRange n)

/-- C80: for every number of unknowns there are solutions no further than `tol` from the ends of every returned component,
when the limit on the passes is not reached. -/
theorem C80_sharp {n : ℕ} (inv : (Fin n → Fin n → K) → Except Err (Fin n → Fin n → K)) (hinv : InvExact inv)
    (solve : (Fin n → Fin n → K) → (Fin n → K) → Except Err (Fin n → K)) (hS : PpsSolveOK solve) (tol : K) (ht : 0 ≤ tol)
    (fuel : ℕ) (maxiter : ℤ) (A invA : Fin n → Fin n → Iv K) (b : Fin n → Iv K) (hA : ∀ i j, Ordinary (A i j))
    (hb : ∀ i, Ordinary (b i)) (hi : ppsInverse Rnd.exact A = .ok invA) (nu : Option (Fin n))
    (he : ∀ k ∈ nu.elim (List.finRange n) fun k => [k],
      EndsEarly (ppsArg Rnd.exact inv solve tol fuel k) maxiter A invA (ppsPlus Rnd.exact b) ∧
      EndsEarly (ppsArg Rnd.exact inv solve tol fuel k) maxiter A invA (ppsMinus Rnd.exact b))
    (X : List (Iv K)) (h : pps Rnd.exact inv solve tol fuel maxiter A b nu = .ok X) :
    List.Forall₂ (fun Z k => (∃ x, United A b x ∧ x k ≤ Z.a + tol) ∧ ∃ x, United A b x ∧ Z.b - tol ≤ x k) X
      (nu.elim (List.finRange n) fun k => [k]) := by
  obtain ⟨o1, o2, -⟩ := ppsPlus_spec Rnd.exact A b hb
  have hends : ∀ l r : K, (mkIv l r).a = l ∧ (mkIv l r).b = r := by
    intro l r; unfold mkIv; split_ifs <;> exact ⟨rfl, rfl⟩
  have run : ∀ (P : PpsArg K n) (c : Fin n → Iv K) (v : K), ppsAlgo P maxiter A invA c = .ok v →
      ∃ k, ppsRun P maxiter A invA c = .ok (v, k) := by
    intro P c v hv
    unfold ppsAlgo at hv
    split at hv
    · cases hv
    · rename_i p hp
      cases hv
      exact ⟨p.2, hp⟩
  unfold pps at h
  split_ifs at h
  rw [hi] at h
  dsimp only at h
  generalize (nu.elim (List.finRange n) fun k => [k]) = idx at h he ⊢
  split at h
  · cases h
  rename_i lo hlo
  split at h
  · cases h
  rename_i hi hhi
  cases h
  have f1 := ppsBounds_spec _ _ _ hlo
  have f2 := ppsBounds_spec _ _ _ hhi
  clear hlo hhi
  induction idx generalizing lo hi with
  | nil => cases f1; cases f2; exact .nil
  | cons k t ih =>
    cases f1 with
    | cons a1 a2 =>
      cases f2 with
      | cons b1 b2 =>
        refine .cons ?_ (ih (fun j hj => he j (List.mem_cons_of_mem _ hj)) _ _ a2 b2)
        obtain ⟨e1, e2⟩ := he k List.mem_cons_self
        obtain ⟨k1, r1⟩ := run _ _ _ a1
        obtain ⟨k2, r2⟩ := run _ _ _ b1
        obtain ⟨x1, u1, w1⟩ := C80_attained inv hinv solve hS tol ht fuel k maxiter A invA _ hA o1 _ _ r1 (e1 _ r1)
        obtain ⟨x2, u2, w2⟩ := C80_attained inv hinv solve hS tol ht fuel k maxiter A invA _ hA o2 _ _ r2 (e2 _ r2)
        rw [(hends _ _).1, (hends _ _).2]
        exact ⟨⟨x1, (united_plus_exact A b hb x1).1 u1, w1⟩, _, (united_plus_exact A b hb x2).2 u2, by linarith⟩

/-- C80 (partial): for at most two unknowns the box is an optimal enclosure up to `tol`, if the extreme values of the
components are attained where no derivative is zero.  Missing from `C80_statement`: the enclosure with zero derivatives,
where it is false (`C80_false`), and the enclosure for three or more unknowns; `C80_sharp` has no such restriction. -/
theorem C80_partial {n : ℕ} (hn : n ≤ 2) (inv : (Fin n → Fin n → K) → Except Err (Fin n → Fin n → K)) (hinv : InvExact inv)
    (solve : (Fin n → Fin n → K) → (Fin n → K) → Except Err (Fin n → K)) (hS : PpsSolveOK solve) (tol : K) (ht : 0 ≤ tol)
    (fuel : ℕ) (maxiter : ℤ) (A invA : Fin n → Fin n → Iv K) (b : Fin n → Iv K) (hA : ∀ i j, Ordinary (A i j))
    (hb : ∀ i, Ordinary (b i)) (hi : ppsInverse Rnd.exact A = .ok invA)
    (hl : ∀ k, LeastNondegenerate A (ppsPlus Rnd.exact b) k ∧ LeastNondegenerate A (ppsMinus Rnd.exact b) k)
    (he : ∀ k, EndsEarly (ppsArg Rnd.exact inv solve tol fuel k) maxiter A invA (ppsPlus Rnd.exact b) ∧
      EndsEarly (ppsArg Rnd.exact inv solve tol fuel k) maxiter A invA (ppsMinus Rnd.exact b))
    (X : List (Iv K)) (h : pps Rnd.exact inv solve tol fuel maxiter A b none = .ok X) :
    List.Forall₂ (fun Z k => (∀ x, United A b x → x k ∈ Z) ∧ (∃ x, United A b x ∧ x k ≤ Z.a + tol) ∧
      ∃ x, United A b x ∧ Z.b - tol ≤ x k) X (List.finRange n) := by
  have s := C80_sharp inv hinv solve hS tol ht fuel maxiter A invA b hA hb hi none (fun k _ => he k) X h
  have p := fun x hx => C79_partial hn Rnd.exact inv hinv solve tol fuel maxiter A b hA hb hl X h x hx
  simp only [Option.elim] at s
  generalize List.finRange n = idx at s p
  clear h
  induction s with
  | nil => exact .nil
  | cons hd tl ih =>
    exact .cons ⟨fun x hx => by cases p x hx with | cons a _ => exact a, hd⟩
      (ih fun x hx => by cases p x hx with | cons _ a => exact a)

/-! ## C60: exceptions -/

/-- The inversion routine and the solver answer for every regular matrix. -/
def PpsTotal {n : ℕ} (inv : (Fin n → Fin n → K) → Except Err (Fin n → Fin n → K))
    (solve : (Fin n → Fin n → K) → (Fin n → K) → Except Err (Fin n → K)) : Prop :=
  ∀ M B, IsInverse M B → (∃ C, inv M = .ok C) ∧ ∀ v, ∃ x, solve M v = .ok x

/-- The full property C60: with an exact inversion routine and an exact solver that answer for every regular matrix, `PPS`
returns a box for every regular point matrix to which the elimination applies. -/
def C60_statement (R : Rnd K) : Prop :=
  ∀ (n : ℕ) (inv : (Fin n → Fin n → K) → Except Err (Fin n → Fin n → K))
    (solve : (Fin n → Fin n → K) → (Fin n → K) → Except Err (Fin n → K)), InvExact inv → PpsSolveOK solve → PpsTotal inv solve →
    ∀ (tol : K) (fuel : ℕ) (maxiter : ℤ) (A invA : Fin n → Fin n → Iv K) (b : Fin n → Iv K),
      0 < tol → 0 ≤ maxiter → (∀ i j, Ordinary (A i j)) → (∀ i, Ordinary (b i)) → Regular A →
      (∀ i j, (A i j).a = (A i j).b) → ppsInverse R A = .ok invA →
      ∃ X, pps R inv solve tol fuel maxiter A b none = .ok X

/-- C60: the search raises `UnboundLocalError` for every matrix whose radii are all zero, and for every matrix if the limit
on the passes is negative. -/
theorem C60_unbound {n : ℕ} (P : PpsArg K n) (maxiter : ℤ) (A invA : Fin n → Fin n → Iv K) (b : Fin n → Iv K)
    (h : (∀ i j, (A i j).rad P.R = 0) ∨ maxiter < 0) (vx : Fin n → Iv K) (hv : P.hbr A b = .ok vx) :
    ppsAlgo P maxiter A invA b = .error (some .unboundLocalError) := by
  unfold ppsAlgo ppsRun
  rw [hv]
  dsimp only
  rcases h with h | h
  · have he : ppsExact P.R A = true := by
      unfold ppsExact
      rw [List.all_eq_true]
      intro ij _
      simpa using h ij.1 ij.2
    cases (maxiter + 1).toNat with
    | zero => rfl
    | succ k => simp [ppsLoop, he]
  · rw [Int.toNat_of_nonpos (by omega)]
    rfl

/-- C60: no point matrix with at least one row ever gets a box. -/
theorem C60_point_never {n : ℕ} (hn : 0 < n) (R : Rnd K) (inv : (Fin n → Fin n → K) → Except Err (Fin n → Fin n → K))
    (solve : (Fin n → Fin n → K) → (Fin n → K) → Except Err (Fin n → K)) (tol : K) (fuel : ℕ) (maxiter : ℤ)
    (A : Fin n → Fin n → Iv K) (b : Fin n → Iv K) (nu : Option (Fin n))
    (h : (∀ i j, (A i j).rad R = 0) ∨ maxiter < 0) (X : List (Iv K)) : pps R inv solve tol fuel maxiter A b nu ≠ .ok X := by
  intro hX
  have key : ∀ (k : Fin n) (invA : Fin n → Fin n → Iv K) (c : Fin n → Iv K) (v : K),
      ppsAlgo (ppsArg R inv solve tol fuel k) maxiter A invA c ≠ .ok v := by
    intro k invA c v hv
    cases hb : (ppsArg R inv solve tol fuel k).hbr A c with
    | error e => unfold ppsAlgo ppsRun at hv; rw [hb] at hv; cases hv
    | ok vx => rw [C60_unbound _ maxiter A invA c h vx hb] at hv; cases hv
  unfold pps at hX
  split_ifs at hX
  split at hX
  · cases hX
  dsimp only at hX
  split at hX
  · cases hX
  rename_i lo hlo
  have f := ppsBounds_spec _ _ _ hlo
  have : ∃ k t, (nu.elim (List.finRange n) fun k => [k]) = k :: t := by
    cases nu with
    | some k => exact ⟨k, [], rfl⟩
    | none =>
      cases n with
      | zero => omega
      | succ n => exact ⟨_, _, List.finRange_succ⟩
  obtain ⟨k, t, e⟩ := this
  rw [e] at f
  cases f with
  | cons a _ => exact key _ _ _ _ a

section
variable {n : ℕ} {P : PpsArg K n} {A : Fin n → Fin n → Iv K} {b : Fin n → Iv K}

/-- One of the routines called by the search raises `e` on a system inside the given one. -/
def HelperRaises (P : PpsArg K n) (A : Fin n → Fin n → Iv K) (b : Fin n → Iv K) (e : Err) : Prop :=
  ∃ Q r, Subsystem A b Q r ∧ (P.hbr Q r = .error e ∨ P.inverse Q = .error e ∨
    P.solve (fun i j => (Q i j).mid P.R) (fun i => (r i).mid P.R) = .error e)

theorem split_raises (l0 : PpsEl K n) (omega : Option K) (ind fl : Bool) (Q' : Fin n → Fin n → Iv K) (r' : Fin n → Iv K)
    (st : PpsProp n) (rest : List (PpsEl K n)) (hs : Subsystem A b Q' r') (e : Err)
    (h : ppsSplit P l0 omega ind fl Q' r' st rest = .error (some e)) : HelperRaises P A b e := by
  unfold ppsSplit at h
  split at h
  · rename_i e' he
    cases h
    exact ⟨Q', r', hs, .inl he⟩
  rename_i vx hvx
  split at h
  · rename_i e' he
    cases h
    exact ⟨Q', r', hs, .inr (.inr he)⟩
  by_cases ho : ltOmega (vx P.nu).a omega = true
  · rw [if_pos ho] at h
    split at h
    · cases h
    split at h
    · rename_i e' he
      cases h
      cases fl with
      | false => simp at he
      | true => exact ⟨Q', r', hs, .inr (.inl (by simpa using he))⟩
    · cases h
  · rw [if_neg ho] at h
    cases h

theorem two_raises (l0 : PpsEl K n) (omega : Option K) (fl : Bool) (Q1 Q2 : Fin n → Fin n → Iv K) (r1 r2 : Fin n → Iv K)
    (st1 st2 : PpsProp n) (rest : List (PpsEl K n)) (h1 : Subsystem A b Q1 r1) (h2 : Subsystem A b Q2 r2) (e : Err)
    (h : ppsTwo P l0 omega fl Q1 Q2 r1 r2 st1 st2 rest = .error (some e)) : HelperRaises P A b e := by
  unfold ppsTwo at h
  split at h
  · rename_i e' he
    cases h
    exact split_raises _ _ _ _ _ _ _ _ h1 e he
  split at h
  · rename_i e' he
    cases h
    exact split_raises _ _ _ _ _ _ _ _ h2 e he
  · cases h

theorem argmaxOn_none {α : Type*} (f : α → K) (l : List α) (h : argmaxOn f l = none) : l = [] := by
  cases l with
  | nil => rfl
  | cons a t => exact absurd h (by unfold argmaxOn; simp)

theorem body_raises (hn : 0 < n) (omega : Option K) (l : PpsEl K n) (rest : List (PpsEl K n)) (hl : Subsystem A b l.Q l.r)
    (e : Err) (h : ppsBody P omega l rest = .error (some e)) : HelperRaises P A b e := by
  unfold ppsBody at h
  dsimp only at h
  have g := monotone_sub (P := P) l hl
  split at h
  · rename_i ij i2 _ _
    have slo := setEntry_inside g.1 ij.1 ij.2 _ (inside_point (g.1 ij.1 ij.2)).1
    have shi := setEntry_inside g.1 ij.1 ij.2 _ (inside_point (g.1 ij.1 ij.2)).2
    have tlo := setComp_inside g.2 i2 _ (inside_point (g.2 i2)).1
    have thi := setComp_inside g.2 i2 _ (inside_point (g.2 i2)).2
    unfold ppsDescend at h
    dsimp only at h
    split_ifs at h
    · exact two_raises _ _ _ _ _ _ _ _ _ _ ⟨slo, g.2⟩ ⟨shi, g.2⟩ e h
    · exact split_raises _ _ _ _ _ _ _ _ ⟨slo, g.2⟩ e h
    · exact split_raises _ _ _ _ _ _ _ _ ⟨shi, g.2⟩ e h
    · exact two_raises _ _ _ _ _ _ _ _ _ _ ⟨g.1, tlo⟩ ⟨g.1, thi⟩ e h
    · exact split_raises _ _ _ _ _ _ _ _ ⟨g.1, thi⟩ e h
    · exact split_raises _ _ _ _ _ _ _ _ ⟨g.1, tlo⟩ e h
  · rename_i hno
    exfalso
    cases h1 : argmaxOn (ppsMat P (ppsD P l) (ppsMonotone P l)) (allPairs n) with
    | none =>
      have := mem_allPairs ((⟨0, hn⟩, ⟨0, hn⟩) : Fin n × Fin n)
      rw [argmaxOn_none _ _ h1] at this
      cases this
    | some ij =>
      cases h2 : argmaxOn (ppsVec P (ppsMonotone P l)) (List.finRange n) with
      | none =>
        have := List.mem_finRange (⟨0, hn⟩ : Fin n)
        rw [argmaxOn_none _ _ h2] at this
        cases this
      | some i2 => exact hno ij i2 h1 h2

theorem body_list (omega : Option K) (l : PpsEl K n) (rest : List (PpsEl K n)) (p : List (PpsEl K n) × K)
    (hs : SortedGamma rest) (h : ppsBody P omega l rest = .ok p) (hl : Subsystem A b l.Q l.r)
    (hr : ∀ f ∈ rest, Subsystem A b f.Q f.r) : ∀ f ∈ p.1, Subsystem A b f.Q f.r := by
  have sp : ∀ (l0 : PpsEl K n) ind fl Q' r' st rest' p', SortedGamma rest' → (∀ f ∈ rest', Subsystem A b f.Q f.r) →
      ppsSplit P l0 omega ind fl Q' r' st rest' = .ok p' → Subsystem A b Q' r' → ∀ f ∈ p'.1, Subsystem A b f.Q f.r := by
    intro l0 ind fl Q' r' st rest' p' hs' hr' h hsub
    obtain ⟨vx, mn, -, -, -, ⟨-, hp⟩ | ⟨-, tags, Z, -, -, hp⟩⟩ := split_inv _ _ _ _ _ _ _ _ _ h
    · rw [hp]; exact hr'
    · obtain ⟨-, h2⟩ := ppsInsert_spec (⟨(vx P.nu).a, Q', r', Z, vx, tags⟩ : PpsEl K n) l0 rest' hs'
      rw [hp]
      intro f hf
      rcases (h2 f).1 hf with rfl | hf
      · exact hsub
      · exact hr' f hf
  have tw : ∀ (l0 : PpsEl K n) fl Q1 Q2 r1 r2 st1 st2 p', ppsTwo P l0 omega fl Q1 Q2 r1 r2 st1 st2 rest = .ok p' →
      Subsystem A b Q1 r1 → Subsystem A b Q2 r2 → ∀ f ∈ p'.1, Subsystem A b f.Q f.r := by
    intro l0 fl Q1 Q2 r1 r2 st1 st2 p' h h1 h2
    unfold ppsTwo at h
    split at h
    · cases h
    rename_i p1 hp1
    split at h
    · cases h
    rename_i p2 hp2
    cases h
    exact sp _ _ _ _ _ _ _ p2 (split_list _ _ _ _ _ _ _ _ _ hs hp1).1 (sp _ _ _ _ _ _ _ _ hs hr hp1 h1) hp2 h2
  unfold ppsBody at h
  dsimp only at h
  have g := monotone_sub (P := P) l hl
  split at h
  · rename_i ij i2 _ _
    have slo := setEntry_inside g.1 ij.1 ij.2 _ (inside_point (g.1 ij.1 ij.2)).1
    have shi := setEntry_inside g.1 ij.1 ij.2 _ (inside_point (g.1 ij.1 ij.2)).2
    have tlo := setComp_inside g.2 i2 _ (inside_point (g.2 i2)).1
    have thi := setComp_inside g.2 i2 _ (inside_point (g.2 i2)).2
    unfold ppsDescend at h
    dsimp only at h
    split_ifs at h
    · exact tw _ _ _ _ _ _ _ _ _ h ⟨slo, g.2⟩ ⟨shi, g.2⟩
    · exact sp _ _ _ _ _ _ _ _ hs hr h ⟨slo, g.2⟩
    · exact sp _ _ _ _ _ _ _ _ hs hr h ⟨shi, g.2⟩
    · exact tw _ _ _ _ _ _ _ _ _ h ⟨g.1, tlo⟩ ⟨g.1, thi⟩
    · exact sp _ _ _ _ _ _ _ _ hs hr h ⟨g.1, thi⟩
    · exact sp _ _ _ _ _ _ _ _ hs hr h ⟨g.1, tlo⟩
  · cases h

theorem loop_raises (hn : 0 < n) (k : ℕ) (omega : Option K) (u : K) (l : PpsEl K n) (rest : List (PpsEl K n))
    (h2 : SortedGamma rest) (h3 : ∀ f ∈ l :: rest, Subsystem A b f.Q f.r) (e : Err)
    (h : ppsLoop P k omega (some u) l rest = .error (some e)) : HelperRaises P A b e := by
  induction k generalizing omega u l rest with
  | zero => cases h
  | succ k ih =>
    unfold ppsLoop at h
    split_ifs at h with hc
    · split at h
      · rename_i e' he
        cases h
        exact body_raises hn _ _ _ (h3 l List.mem_cons_self) e he
      rename_i p hp
      obtain ⟨s1, -⟩ := body_spec _ _ _ _ h2 hp
      have u1 := body_list _ _ _ _ h2 hp (h3 l List.mem_cons_self) fun f hf => h3 f (List.mem_cons_of_mem _ hf)
      dsimp only at h
      have hf := fun e => @List.mem_filter _ (fun e : PpsEl K n => decide (e.gamma ≤ ppsOmega p.2 omega)) p.1 e
      have sf : SortedGamma (p.1.filter fun e => decide (e.gamma ≤ ppsOmega p.2 omega)) := List.Pairwise.filter _ s1
      generalize (p.1.filter fun e => decide (e.gamma ≤ ppsOmega p.2 omega)) = L at h hf sf
      cases L with
      | nil => cases h
      | cons l' rest' =>
        exact ih _ _ l' rest' (List.pairwise_cons.1 sf).2 (fun f hf' => u1 f ((hf f).1 hf').1) h

end

/-- C60: with a matrix that is not a point matrix and a nonnegative limit, every exception of the search is one raised by
`HBR`, `Gauss` or the linear solver on a system inside the given one. -/
theorem C60_search_partial {n : ℕ} (P : PpsArg K n) (maxiter : ℤ) (hm : 0 ≤ maxiter) (A invA : Fin n → Fin n → Iv K)
    (b : Fin n → Iv K) (hA : ∀ i j, Ordinary (A i j)) (hb : ∀ i, Ordinary (b i)) (i j : Fin n) (hw : (A i j).rad P.R ≠ 0)
    (e : Err) (h : ppsAlgo P maxiter A invA b = .error (some e)) : HelperRaises P A b e := by
  have hn : 0 < n := i.pos
  have sub : Subsystem A b A b := ⟨fun i j => ⟨hA i j, le_refl _, le_refl _⟩, fun i => ⟨hb i, le_refl _, le_refl _⟩⟩
  unfold ppsAlgo at h
  split at h
  swap
  · cases h
  rename_i e' he
  cases h
  unfold ppsRun at he
  split at he
  · rename_i e' he'
    cases he
    exact ⟨A, b, sub, .inl he'⟩
  rename_i vx hvx
  obtain ⟨k, hk⟩ : ∃ k, (maxiter + 1).toNat = k + 1 := ⟨maxiter.toNat, by omega⟩
  have hx : ppsExact P.R A = false := by
    rw [Bool.eq_false_iff]
    intro hx
    unfold ppsExact at hx
    rw [List.all_eq_true] at hx
    exact hw (by simpa using hx (i, j) (mem_allPairs _))
  rw [hk] at he
  unfold ppsLoop at he
  simp only [hx, ppsFar, Bool.not_false, Bool.and_self, if_true] at he
  split at he
  · rename_i e' he'
    cases he
    exact body_raises hn _ _ _ sub e he'
  rename_i p hp
  obtain ⟨s1, -⟩ := body_spec _ _ _ _ List.Pairwise.nil hp
  have u1 := body_list (A := A) (b := b) _ _ _ _ List.Pairwise.nil hp sub (fun f hf => by cases hf)
  have hf := fun e => @List.mem_filter _ (fun e : PpsEl K n => decide (e.gamma ≤ ppsOmega p.2 none)) p.1 e
  have sf : SortedGamma (p.1.filter fun e => decide (e.gamma ≤ ppsOmega p.2 none)) := List.Pairwise.filter _ s1
  generalize (p.1.filter fun e => decide (e.gamma ≤ ppsOmega p.2 none)) = L at he hf sf
  cases L with
  | nil => cases he
  | cons l' rest' =>
    exact loop_raises hn _ _ _ _ _ (List.pairwise_cons.1 sf).2 (fun f hf' => u1 f ((hf f).1 hf').1) e he

/-- C60 (partial): with a matrix that is not a point matrix and a nonnegative limit, every exception of `PPS` is the
assertion on the determinant or one raised by `HBR`, `Gauss` or the linear solver on a system inside the given one (with
the right-hand side `b` or `-b`, rounded).  Missing from `C60_statement`: point matrices, for which it is false
(`C60_point_never`). -/
theorem C60_partial {n : ℕ} (R : Rnd K) (inv : (Fin n → Fin n → K) → Except Err (Fin n → Fin n → K))
    (solve : (Fin n → Fin n → K) → (Fin n → K) → Except Err (Fin n → K)) (tol : K) (fuel : ℕ) (maxiter : ℤ) (hm : 0 ≤ maxiter)
    (A : Fin n → Fin n → Iv K) (b : Fin n → Iv K) (hA : ∀ i j, Ordinary (A i j)) (hb : ∀ i, Ordinary (b i)) (i j : Fin n)
    (hw : (A i j).rad R ≠ 0) (nu : Option (Fin n)) (e : Err)
    (h : pps R inv solve tol fuel maxiter A b nu = .error (some e)) :
    e = .assertionError ∨ (∃ k, HelperRaises (ppsArg R inv solve tol fuel k) A (ppsPlus R b) e) ∨
      ∃ k, HelperRaises (ppsArg R inv solve tol fuel k) A (ppsMinus R b) e := by
  obtain ⟨o1, o2, -⟩ := ppsPlus_spec R A b hb
  have bounds : ∀ (f : Fin n → PpsRes K) (is : List (Fin n)), ppsBounds f is = .error (some e) →
      ∃ k, f k = .error (some e) := by
    intro f is hf
    induction is with
    | nil => cases hf
    | cons k t ih =>
      unfold ppsBounds at hf
      split at hf
      · rename_i e' he
        cases hf
        exact ⟨k, he⟩
      split at hf
      · rename_i e' he
        cases hf
        exact ih he
      · cases hf
  unfold pps at h
  split_ifs at h
  · cases h
    exact .inl rfl
  split at h
  · rename_i e' he
    cases h
    exact .inr (.inl ⟨i, A, _, ⟨fun i j => ⟨hA i j, le_refl _, le_refl _⟩, fun i => ⟨o1 i, le_refl _, le_refl _⟩⟩,
      .inr (.inl he)⟩)
  rename_i invA hinv
  dsimp only at h
  split at h
  · rename_i e' he
    cases h
    obtain ⟨k, hk⟩ := bounds _ _ he
    exact .inr (.inl ⟨k, C60_search_partial _ maxiter hm A invA _ hA o1 i j hw e hk⟩)
  split at h
  · rename_i e' he
    cases h
    obtain ⟨k, hk⟩ := bounds _ _ he
    exact .inr (.inr ⟨k, C60_search_partial _ maxiter hm A invA _ hA o2 i j hw e hk⟩)
  · cases h

theorem ppsTotal2 : PpsTotal ppsInv2 ppsSolve2 := by
  intro M B h
  have hd : M 0 0 * M 1 1 - M 0 1 * M 1 0 ≠ 0 := by
    have h00 := h 0 0
    have h01 := h 0 1
    have h10 := h 1 0
    have h11 := h 1 1
    simp only [Fin.sum_univ_two] at h00 h01 h10 h11
    simp at h00 h01 h10 h11
    intro hd
    have : (M 0 0 * M 1 1 - M 0 1 * M 1 0) * (B 0 0 * B 1 1 - B 0 1 * B 1 0) = 1 := by
      linear_combination (M 1 0 * B 0 1 + M 1 1 * B 1 1) * h00 + h11 - (M 1 0 * B 0 0 + M 1 1 * B 1 0) * h01
    rw [hd, zero_mul] at this
    exact zero_ne_one this
  have e : ppsInv2 M = .ok ![![M 1 1 / (M 0 0 * M 1 1 - M 0 1 * M 1 0), -M 0 1 / (M 0 0 * M 1 1 - M 0 1 * M 1 0)],
      ![-M 1 0 / (M 0 0 * M 1 1 - M 0 1 * M 1 0), M 0 0 / (M 0 0 * M 1 1 - M 0 1 * M 1 0)]] := if_neg hd
  refine ⟨⟨_, e⟩, fun v => ⟨_, by unfold ppsSolve2; rw [e]⟩⟩

/-- The identity as an interval matrix, -/
def ppsEyeA : Fin 2 → Fin 2 → Iv ℚ := ![![⟨.classical, 1, 1⟩, ⟨.classical, 0, 0⟩], ![⟨.classical, 0, 0⟩, ⟨.classical, 1, 1⟩]]

/-- and the verdict of the interval inverse. -/
def ppsOkQ : Except Err (Fin 2 → Fin 2 → Iv ℚ) → Bool
  | .ok _ => true
  | .error _ => false

/-- C60 is false of the code: the identity matrix is rejected with `UnboundLocalError`. -/
theorem C60_false : ¬ C60_statement (Rnd.exact : Rnd ℚ) := by
  intro h
  have h0 : ppsOkQ (ppsInverse Rnd.exact ppsEyeA) = true := by decide +kernel
  cases hI : ppsInverse Rnd.exact ppsEyeA with
  | error e => rw [hI] at h0; cases h0
  | ok invA =>
    have reg : Regular ppsEyeA := by
      intro Q hQ
      refine ⟨Q, ?_⟩
      have : Q = fun i j => if i = j then 1 else 0 := by
        funext i j
        have := Iv.mem_def.1 (hQ i j)
        revert this
        fin_cases i <;> fin_cases j <;> simp [ppsEyeA] <;> intro a c <;> exact le_antisymm c a
      rw [this]
      intro i j
      simp
    obtain ⟨X, hX⟩ := h 2 ppsInv2 ppsSolve2 ppsInv2_exact ppsSolve2_ok ppsTotal2 (1/1000) 20 2000 ppsEyeA invA ppsZeroB
      (by norm_num) (by norm_num) (by unfold Ordinary; decide +kernel) (by unfold Ordinary; decide +kernel) reg
      (by decide +kernel) hI
    exact C60_point_never (by norm_num) _ _ _ _ _ _ _ _ _ (.inl (by decide +kernel)) X hX

/-! ### A system with nonzero derivatives -/

/-- The matrix `([2, 3], 1; 1, [2, 3])`. -/
def ppsGoodA : Fin 2 → Fin 2 → Iv ℚ := ![![⟨.classical, 2, 3⟩, ⟨.classical, 1, 1⟩], ![⟨.classical, 1, 1⟩, ⟨.classical, 2, 3⟩]]

/-- The right-hand side `([2, 3], [2, 3])`. -/
def ppsGoodB : Fin 2 → Iv ℚ := ![⟨.classical, 2, 3⟩, ⟨.classical, 2, 3⟩]


theorem ppsGood_regular : Regular ppsGoodA := by
  intro Q hQ
  have q00 := Iv.mem_def.1 (hQ 0 0)
  have q01 := Iv.mem_def.1 (hQ 0 1)
  have q10 := Iv.mem_def.1 (hQ 1 0)
  have q11 := Iv.mem_def.1 (hQ 1 1)
  simp [ppsGoodA] at q00 q01 q10 q11
  refine ⟨_, ppsInv2_exact Q _ (if_neg ?_)⟩
  rw [le_antisymm q01.2 q01.1, le_antisymm q10.2 q10.1]
  nlinarith [q00.1, q11.1]

theorem ppsGood_nondegenerate (c : Fin 2 → Iv ℚ) (s : ℚ) (hs : s = 1 ∨ s = -1) (oc : ∀ i, Ordinary (c i))
    (hc : ∀ r, InVec r c → ∀ i, 2 ≤ s * r i ∧ s * r i ≤ 3) (nu : Fin 2) : LeastNondegenerate ppsGoodA c nu := by
  refine leastNondegenerate_of_regular _ _ (by unfold Ordinary; decide +kernel) oc ppsGood_regular nu ?_
  intro Q Y r x hQ hr hY hx
  have q00 := Iv.mem_def.1 (hQ 0 0)
  have q01 := Iv.mem_def.1 (hQ 0 1)
  have q10 := Iv.mem_def.1 (hQ 1 0)
  have q11 := Iv.mem_def.1 (hQ 1 1)
  simp [ppsGoodA] at q00 q01 q10 q11
  have e01 := le_antisymm q01.2 q01.1
  have e10 := le_antisymm q10.2 q10.1
  have h00 := hY 0 0
  have h01 := hY 0 1
  have h10 := hY 1 0
  have h11 := hY 1 1
  simp only [Fin.sum_univ_two] at h00 h01 h10 h11
  simp [e01, e10] at h00 h01 h10 h11
  have x0 := hx 0
  have x1 := hx 1
  simp only [apply, Fin.sum_univ_two, e01, e10] at x0 x1
  have r0 := hc r hr 0
  have r1 := hc r hr 1
  have n0 : Q 0 0 ≠ 0 := by linarith [q00.1]
  have n1 : Q 1 1 ≠ 0 := by linarith [q11.1]
  constructor
  · intro i hi
    fin_cases nu <;> fin_cases i <;> simp at hi
    · rw [hi, zero_add, mul_eq_zero, or_iff_right n1] at h10
      rw [hi, h10] at h00
      norm_num at h00
    · rw [hi, mul_zero, zero_add] at h01
      rw [hi, h01] at h11
      norm_num at h11
    · rw [hi, mul_zero, add_zero] at h10
      rw [hi, h10] at h00
      norm_num at h00
    · rw [hi, add_zero, mul_eq_zero, or_iff_right n0] at h01
      rw [hi, h01] at h11
      norm_num at h11
  · intro j hj
    fin_cases j <;> simp at hj
    · rw [hj] at x0 x1
      have e : Q 1 1 * r 0 = r 1 := by rw [← x0, ← x1]; ring
      rw [← e] at r1
      rcases hs with rfl | rfl <;> nlinarith [q11.1, r0.1, r1.2]
    · rw [hj] at x0 x1
      have e : Q 0 0 * r 1 = r 0 := by rw [← x0, ← x1]; ring
      rw [← e] at r0
      rcases hs with rfl | rfl <;> nlinarith [q00.1, r1.1, r0.2]

/-- The passes left by the search for the component `k`. -/
def ppsLeft (A : Fin 2 → Fin 2 → Iv ℚ) (maxiter : ℤ) (c : Fin 2 → Iv ℚ) (k : Fin 2) : ℕ :=
  match ppsInverse Rnd.exact A with
  | .error _ => 0
  | .ok Y =>
      match ppsRun (ppsArg Rnd.exact ppsInv2 ppsSolve2 (1/1000) 20 k) maxiter A Y c with
      | .error _ => 0
      | .ok p => p.2

theorem ppsLeft_spec (A invA : Fin 2 → Fin 2 → Iv ℚ) (hi : ppsInverse Rnd.exact A = .ok invA) (maxiter : ℤ)
    (c : Fin 2 → Iv ℚ) (k : Fin 2) (h : 0 < ppsLeft A maxiter c k) :
    EndsEarly (ppsArg Rnd.exact ppsInv2 ppsSolve2 (1/1000) 20 k) maxiter A invA c := by
  intro p hp
  unfold ppsLeft at h
  rw [hi] at h
  dsimp only at h
  rw [hp] at h
  exact h

/-- The hypotheses of `C79_partial`, `C80_sharp` and `C80_partial` hold for this system; the result `[1/5, 7/5] x [1/5, 7/5]` is
found in one pass. -/
example : InvExact ppsInv2 ∧ PpsSolveOK ppsSolve2 ∧ Regular ppsGoodA ∧ ppsOkQ (ppsInverse Rnd.exact ppsGoodA) = true ∧
    (∀ k, LeastNondegenerate ppsGoodA (ppsPlus Rnd.exact ppsGoodB) k ∧
      LeastNondegenerate ppsGoodA (ppsMinus Rnd.exact ppsGoodB) k) ∧
    (∀ k, 0 < ppsLeft ppsGoodA 1 (ppsPlus Rnd.exact ppsGoodB) k ∧ 0 < ppsLeft ppsGoodA 1 (ppsMinus Rnd.exact ppsGoodB) k) ∧
    ppsEnds (pps Rnd.exact ppsInv2 ppsSolve2 (1/1000) 20 1 ppsGoodA ppsGoodB none) = some [(1/5, 7/5), (1/5, 7/5)] := by
  refine ⟨ppsInv2_exact, ppsSolve2_ok, ppsGood_regular, by decide +kernel, fun k => ⟨?_, ?_⟩, by decide +kernel,
    by decide +kernel⟩
  · refine ppsGood_nondegenerate _ 1 (.inl rfl) (by unfold Ordinary; decide +kernel) ?_ k
    intro r hr i
    have h := Iv.mem_def.1 (hr i)
    have ha : ∀ i, (ppsPlus Rnd.exact ppsGoodB i).a = 2 ∧ (ppsPlus Rnd.exact ppsGoodB i).b = 3 := by decide +kernel
    rw [(ha i).1, (ha i).2] at h
    constructor <;> linarith [h.1, h.2]
  · refine ppsGood_nondegenerate _ (-1) (.inr rfl) (by unfold Ordinary; decide +kernel) ?_ k
    intro r hr i
    have h := Iv.mem_def.1 (hr i)
    have ha : ∀ i, (ppsMinus Rnd.exact ppsGoodB i).a = -3 ∧ (ppsMinus Rnd.exact ppsGoodB i).b = -2 := by decide +kernel
    rw [(ha i).1, (ha i).2] at h
    constructor <;> linarith [h.1, h.2]

/-- The hypotheses of `C60_partial` for this system, and of `C60_unbound` for the identity. -/
example : (ppsGoodA 0 0).rad Rnd.exact ≠ 0 ∧ (∀ i j, (ppsEyeA i j).rad Rnd.exact = 0) ∧
    ∃ vx, hbr Rnd.exact ppsInv2 ppsEyeA ppsZeroB = .ok vx := by
  refine ⟨by decide +kernel, by decide +kernel, ?_⟩
  have h : errVec (hbr Rnd.exact ppsInv2 ppsEyeA ppsZeroB) = none := by decide +kernel
  cases hX : hbr Rnd.exact ppsInv2 ppsEyeA ppsZeroB with
  | error e => rw [hX] at h; cases h
  | ok vx => exact ⟨vx, rfl⟩

/-- The verdict on an end of a component. -/
def ppsPoint : Except Err (Fin 2 → Iv ℚ) → Option (List (ℚ × ℚ))
  | .ok v => some [((v 0).a, (v 0).b), ((v 1).a, (v 1).b)]
  | .error _ => none

/-- The hypotheses of `C44_hbr_point` for the point matrix `(2, 1; 1, 2)` and the right-hand side `([-1, 1], 1)`. -/
example : ppsPoint (hbr Rnd.exact ppsInv2 (fun i j => pointIv (if i = j then 2 else 1)) ppsZeroB) =
    some [(-1, 1/3), (1/3, 1)] := by decide +kernel

/-- C80 is false of the code: in the diagonal system of `C79_false` the limit on the passes is not reached. -/
theorem C80_false : ¬ C80_statement (K := ℚ) := by
  intro h
  have h0 : ppsEnds (pps Rnd.exact ppsInv2 ppsSolve2 (1/1000) 20 2000 ppsZeroA ppsZeroB none) = some [(-1/2, 1), (1, 1)] := by
    decide +kernel
  have h1 : ppsOkQ (ppsInverse Rnd.exact ppsZeroA) = true := by decide +kernel
  cases hI : ppsInverse Rnd.exact ppsZeroA with
  | error e => rw [hI] at h1; cases h1
  | ok invA =>
  cases hX : pps Rnd.exact ppsInv2 ppsSolve2 (1/1000) 20 2000 ppsZeroA ppsZeroB none with
  | error e => rw [hX] at h0; cases h0
  | ok X =>
    rw [hX, ppsEnds, Option.some.injEq] at h0
    obtain ⟨e1, e2⟩ : (∀ k, 0 < ppsLeft ppsZeroA 2000 (ppsPlus Rnd.exact ppsZeroB) k) ∧
        ∀ k, 0 < ppsLeft ppsZeroA 2000 (ppsMinus Rnd.exact ppsZeroB) k := by decide +kernel
    have := h 2 ppsInv2 ppsSolve2 ppsInv2_exact ppsSolve2_ok (1/1000) 20 2000 ppsZeroA invA ppsZeroB X (by norm_num)
      (by unfold Ordinary; decide +kernel) (by unfold Ordinary; decide +kernel) ppsZero_regular hI
      (fun k => ⟨ppsLeft_spec _ _ hI _ _ _ (e1 k), ppsLeft_spec _ _ hI _ _ _ (e2 k)⟩) hX
    cases X with
    | nil => cases h0
    | cons X0 t =>
      rw [List.map_cons, List.cons.injEq, Prod.mk.injEq] at h0
      rw [show List.finRange 2 = [0, 1] from rfl] at this
      cases this with
      | cons h1 h2 =>
        have := (Iv.mem_def.1 (h1.1 _ ppsZero_solution)).1
        rw [h0.1.1] at this
        norm_num at this

end IntvalPy
