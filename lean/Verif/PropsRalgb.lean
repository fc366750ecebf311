import Verif.PropsOptim

/-!
# C35: ralgb5 bookkeeping, C36: maximize
-/

set_option autoImplicit false
set_option linter.unusedSectionVars false

namespace IntvalPy
open Spec

variable {K : Type*} [Field K] [LinearOrder K] [IsStrictOrderedRing K] {m n : ℕ}

/-- `(xr, fr)` is the best of the evaluated points (the starting point among them), and `k` counts them. -/
def Best (calcfg : (Fin n → K) → K × (Fin n → K)) (x0 : Fin n → K) (xr : Fin n → K) (fr : K) (k : ℕ)
    (evals : List (Fin n → K)) : Prop :=
  xr ∈ evals ∧ fr = (calcfg xr).1 ∧ (∀ e ∈ evals, fr ≤ (calcfg e).1) ∧ k = evals.length ∧ x0 ∈ evals

/-- The bookkeeping invariant of the state. -/
def RalgSt.Inv (calcfg : (Fin n → K) → K × (Fin n → K)) (x0 : Fin n → K) (s : RalgSt K n) : Prop :=
  Best calcfg x0 s.xr s.fr s.ncalls s.evals

/-- What is promised about the line search started from `s` with `fuel` allowed passes. -/
def Line.Good (P : RalgPar K n) (calcfg : (Fin n → K) → K × (Fin n → K)) (x0 : Fin n → K) (s : RalgSt K n)
    (fuel : ℕ) : Line K n → Prop
  | .ret o => Best calcfg x0 o.xr o.fr o.ncalls o.evals ∧ o.ncalls ≤ s.ncalls + fuel ∧ o.nit = s.nit ∧
        o.ccode = 2 ∧ ∃ e ∈ o.evals, P.norm (calcfg e).2 < P.tolg
  | .done s' _ _ _ => s'.Inv calcfg x0 ∧ s'.ncalls ≤ s.ncalls + fuel ∧ s'.nit = s.nit

theorem Line.Good.mono {P : RalgPar K n} {calcfg : (Fin n → K) → K × (Fin n → K)} {x0 : Fin n → K}
    {s s2 : RalgSt K n} {fuel : ℕ} {L : Line K n} (h : L.Good P calcfg x0 s2 fuel)
    (h1 : s2.ncalls = s.ncalls + 1) (h2 : s2.nit = s.nit) : L.Good P calcfg x0 s (fuel + 1) := by
  cases L with
  | ret o => obtain ⟨a1, a2, a3, a4⟩ := h; exact ⟨a1, by omega, a3.trans h2, a4⟩
  | done s' g d c => obtain ⟨a1, a2, a3⟩ := h; exact ⟨a1, by omega, a3.trans h2⟩

theorem lineSearch_spec (P : RalgPar K n) (calcfg : (Fin n → K) → K × (Fin n → K)) (x0 dx : Fin n → K) (normdx : K)
    (fuel cal : ℕ) (deltax : K) (g1 : Fin n → K) (d : K) (s : RalgSt K n) (hs : s.Inv calcfg x0) :
    (lineSearch P calcfg dx normdx fuel cal deltax g1 d s).Good P calcfg x0 s fuel := by
  induction fuel generalizing cal deltax g1 d s with
  | zero => exact ⟨hs, le_refl _, rfl⟩
  | succ fuel ih =>
    rw [lineSearch]
    by_cases hd : 0 < d
    · rw [if_pos hd]
      obtain ⟨h1, h2, h3, h4, h5⟩ := hs
      simp only
      set x : Fin n → K := fun i => s.x i - s.hs * dx i with hx
      set r := calcfg x with hr
      set s1 : RalgSt K n := { s with x := x, ncalls := s.ncalls + 1, evals := s.evals ++ [x] } with hs1
      set s2 : RalgSt K n := if r.1 < s1.fr then { s1 with fr := r.1, xr := x } else s1 with hs2
      have hI2 : s2.Inv calcfg x0 ∧ s2.ncalls = s.ncalls + 1 ∧ s2.nit = s.nit ∧ s2.evals = s.evals ++ [x] := by
        rw [hs2]
        split_ifs with hlt
        · refine ⟨⟨by simp [s1], rfl, ?_, by simp [s1, h4], by simp [s1, h5]⟩, rfl, rfl, rfl⟩
          intro e he
          simp only [s1, List.mem_append, List.mem_singleton] at he
          rcases he with he | rfl
          · exact hlt.le.trans (h3 e he)
          · exact le_refl _
        · refine ⟨⟨by simp [s1, h1], h2, ?_, by simp [s1, h4], by simp [s1, h5]⟩, rfl, rfl, rfl⟩
          intro e he
          simp only [s1, List.mem_append, List.mem_singleton] at he
          rcases he with he | rfl
          · exact h3 e he
          · exact not_lt.mp hlt
      obtain ⟨hI, hn, hnit, hev⟩ := hI2
      by_cases hg : P.norm r.2 < P.tolg
      · rw [if_pos hg]
        exact ⟨hI, by change s2.ncalls ≤ _; omega, hnit, rfl, x, by change x ∈ s2.evals; rw [hev]; simp, hg⟩
      rw [if_neg hg]
      by_cases hc : cal % P.nh = 0
      · rw [if_pos hc]
        exact (ih (cal + 1) (deltax + s.hs * normdx) r.2 (dotF dx r.2) { s2 with hs := s2.hs * P.q2 } hI).mono hn hnit
      · rw [if_neg hc]
        exact (ih (cal + 1) (deltax + s.hs * normdx) r.2 (dotF dx r.2) s2 hI).mono hn hnit
    · rw [if_neg hd]
      exact ⟨hs, by omega, rfl⟩

/-- What is promised about the result of `ralgb5`. -/
def RalgOut.Good (P : RalgPar K n) (calcfg : (Fin n → K) → K × (Fin n → K)) (x0 : Fin n → K) (o : RalgOut K n) :
    Prop :=
  Best calcfg x0 o.xr o.fr o.ncalls o.evals ∧ 1 ≤ o.ccode ∧ o.ccode ≤ 5 ∧ o.nit ≤ P.maxiter + 1 ∧
    (o.ccode = 4 → o.nit = P.maxiter + 1) ∧ (o.ccode ≠ 4 → o.nit ≤ P.maxiter) ∧
    (o.ccode = 2 → ∃ e ∈ o.evals, P.norm (calcfg e).2 < P.tolg)

theorem ralgLoop_spec (P : RalgPar K n) (calcfg : (Fin n → K) → K × (Fin n → K)) (x0 : Fin n → K) (k : ℕ)
    (s : RalgSt K n) (hs : s.Inv calcfg x0) (hk : s.nit + k = P.maxiter + 1) :
    (ralgLoop P calcfg k s).Good P calcfg x0 ∧ (ralgLoop P calcfg k s).ncalls ≤ s.ncalls + 501 * k := by
  induction k generalizing s with
  | zero =>
    rw [ralgLoop]
    exact ⟨⟨hs, by simp [RalgSt.out], by simp [RalgSt.out], by simp only [RalgSt.out]; omega,
      fun _ => by simp only [RalgSt.out]; omega, fun h => absurd rfl h, fun h => by simp [RalgSt.out] at h⟩,
      by simp [RalgSt.out]⟩
  | succ k ih =>
    rw [ralgLoop]
    simp only
    have hline := lineSearch_spec P calcfg x0 (matVecF s.B (P.normalize (matTVec s.B s.g0)))
      (P.norm (matVecF s.B (P.normalize (matTVec s.B s.g0)))) 501 0 0 (matTVec s.B s.g0) 1
      { s with vf := s.vf.set (P.nsims - 1) s.fr } hs
    generalize lineSearch P calcfg (matVecF s.B (P.normalize (matTVec s.B s.g0)))
      (P.norm (matVecF s.B (P.normalize (matTVec s.B s.g0)))) 501 0 0 (matTVec s.B s.g0) 1
      { s with vf := s.vf.set (P.nsims - 1) s.fr } = L at hline ⊢
    cases L with
    | ret o =>
      obtain ⟨a1, a2, a3, a4, a5⟩ := hline
      simp only at a2 a3
      simp only
      have hb : o.ncalls ≤ s.ncalls + 501 * (k + 1) := le_trans a2 (by rw [Nat.mul_succ]; omega)
      have hn : o.nit ≤ P.maxiter := by omega
      refine ⟨⟨a1, ?_, ?_, ?_, ?_, fun _ => hn, fun _ => a5⟩, hb⟩
      · rw [a4]; norm_num
      · rw [a4]; norm_num
      · omega
      · rw [a4]; norm_num
    | done s1 g1 deltax cal =>
      obtain ⟨a1, a2, a3⟩ := hline
      simp only at a2 a3
      simp only
      have good : ∀ (s2 : RalgSt K n) (c : ℕ), s2.Inv calcfg x0 → s2.nit = s1.nit → s2.ncalls = s1.ncalls → 1 ≤ c →
          c ≤ 5 → c ≠ 2 → c ≠ 4 →
          (s2.out c).Good P calcfg x0 ∧ (s2.out c).ncalls ≤ s.ncalls + 501 * (k + 1) := by
        intro s2 c hi hn hc h1 h5 h2 h4
        refine ⟨⟨hi, h1, h5, ?_, fun h => absurd h h4, fun _ => ?_, fun h => absurd h h2⟩, ?_⟩
        · simp only [RalgSt.out]; omega
        · simp only [RalgSt.out]; omega
        · simp only [RalgSt.out]; omega
      have step : ∀ s2 : RalgSt K n, s2.Inv calcfg x0 → s2.nit = s1.nit + 1 → s2.ncalls = s1.ncalls →
          (ralgLoop P calcfg k s2).Good P calcfg x0 ∧
            (ralgLoop P calcfg k s2).ncalls ≤ s.ncalls + 501 * (k + 1) := by
        intro s2 hi hn hc
        obtain ⟨i1, i2⟩ := ih s2 hi (by omega)
        exact ⟨i1, by omega⟩
      split_ifs with c5 c3 cdx cf
      all_goals first
        | exact good _ 5 a1 rfl rfl (by norm_num) (by norm_num) (by norm_num) (by norm_num)
        | exact good _ 3 a1 rfl rfl (by norm_num) (by norm_num) (by norm_num) (by norm_num)
        | exact good _ 1 a1 rfl rfl (by norm_num) (by norm_num) (by norm_num) (by norm_num)
        | skip
      all_goals exact step _ a1 rfl rfl

/-- C35: for any objective, starting point and parameters (`norm` and division by it are arbitrary functions),
`ralgb5` returns an evaluated point, its objective value, which is the least of all evaluated values, and the
exact number of evaluations, at most `1 + 501 (maxiter + 1)`; the exit code is between 1 and 5, code 4 means that
`maxiter + 1` iterations were made, code 2 that a gradient below `tolg` was met. -/
theorem C35_ralgb5 (P : RalgPar K n) (big : K) (calcfg : (Fin n → K) → K × (Fin n → K)) (x0 : Fin n → K) :
    let o := ralgb5 P big calcfg x0
    (o.xr ∈ o.evals ∧ o.fr = (calcfg o.xr).1 ∧ (∀ e ∈ o.evals, o.fr ≤ (calcfg e).1) ∧ o.fr ≤ (calcfg x0).1) ∧
    (o.ncalls = o.evals.length ∧ o.ncalls ≤ 1 + 501 * (P.maxiter + 1)) ∧
    (1 ≤ o.ccode ∧ o.ccode ≤ 5) ∧ (o.ccode = 4 → o.nit = P.maxiter + 1) ∧ (o.ccode ≠ 4 → o.nit ≤ P.maxiter) ∧
    (o.ccode = 2 → ∃ e ∈ o.evals, P.norm (calcfg e).2 < P.tolg) := by
  have key : (ralgb5 P big calcfg x0).Good P calcfg x0 ∧
      (ralgb5 P big calcfg x0).ncalls ≤ 1 + 501 * (P.maxiter + 1) := by
    rw [ralgb5]
    have hI : Best calcfg x0 x0 (calcfg x0).1 1 [x0] := ⟨by simp, rfl, by simp, rfl, by simp⟩
    split_ifs with h
    · exact ⟨⟨hI, by simp [RalgSt.out], by simp [RalgSt.out], by simp [RalgSt.out], fun h => by simp [RalgSt.out] at h,
        fun _ => by simp [RalgSt.out], fun _ => ⟨x0, by simp [RalgSt.out], h⟩⟩, by simp [RalgSt.out]⟩
    · exact ralgLoop_spec P calcfg x0 _ _ hI (by simp)
  intro o
  obtain ⟨⟨⟨h1, h2, h3, h4, h5⟩, h6, h7, h8, h9, h10, h11⟩, h12⟩ := key
  exact ⟨⟨h1, h2, h3, h3 x0 h5⟩, ⟨h4, h12⟩, ⟨h6, h7⟩, h9, h10, h11⟩

/-- No evaluated point has a gradient below `tolg`. -/
def Quiet (P : RalgPar K n) (calcfg : (Fin n → K) → K × (Fin n → K)) (evals : List (Fin n → K)) : Prop :=
  ∀ e ∈ evals, ¬ P.norm (calcfg e).2 < P.tolg

/-- What the stop codes need to know about the line search. -/
def Line.Codes (P : RalgPar K n) (calcfg : (Fin n → K) → K × (Fin n → K)) (s : RalgSt K n) (cal : ℕ) : Line K n → Prop
  | .ret o => o.ccode = 2 ∧ ∃ e ∈ o.evals, P.norm (calcfg e).2 < P.tolg
  | .done s' _ deltax' cal' => Quiet P calcfg s'.evals ∧ s'.vf = s.vf ∧ cal' + s.ncalls = cal + s'.ncalls ∧
      (0 ≤ P.q2 → 0 ≤ s.hs → 0 ≤ s'.hs ∧ 0 ≤ deltax')

theorem lineSearch_codes (P : RalgPar K n) (calcfg : (Fin n → K) → K × (Fin n → K)) (dx : Fin n → K) (normdx : K)
    (hn : 0 ≤ normdx) (fuel cal : ℕ) (deltax : K) (g1 : Fin n → K) (d : K) (s : RalgSt K n) (hq : Quiet P calcfg s.evals)
    (hdx : 0 ≤ deltax) : (lineSearch P calcfg dx normdx fuel cal deltax g1 d s).Codes P calcfg s cal := by
  have main : ∀ (fuel cal : ℕ) (deltax : K) (g1 : Fin n → K) (d : K) (s : RalgSt K n), Quiet P calcfg s.evals →
      (match lineSearch P calcfg dx normdx fuel cal deltax g1 d s with
        | .ret o => o.ccode = 2 ∧ ∃ e ∈ o.evals, P.norm (calcfg e).2 < P.tolg
        | .done s' _ deltax' cal' => Quiet P calcfg s'.evals ∧ s'.vf = s.vf ∧ cal' + s.ncalls = cal + s'.ncalls ∧
            (0 ≤ P.q2 → 0 ≤ s.hs → 0 ≤ deltax → 0 ≤ s'.hs ∧ 0 ≤ deltax')) := by
    intro fuel
    induction fuel with
    | zero => exact fun cal deltax g1 d s hq => ⟨hq, rfl, rfl, fun _ h1 h2 => ⟨h1, h2⟩⟩
    | succ fuel ih =>
        intro cal deltax g1 d s hq
        rw [lineSearch]
        by_cases hd : 0 < d
        · rw [if_pos hd]
          simp only
          set x : Fin n → K := fun i => s.x i - s.hs * dx i with hx
          set r := calcfg x with hr
          set s1 : RalgSt K n := { s with x := x, ncalls := s.ncalls + 1, evals := s.evals ++ [x] } with hs1
          set s2 : RalgSt K n := if r.1 < s1.fr then { s1 with fr := r.1, xr := x } else s1 with hs2
          have h2 : s2.evals = s.evals ++ [x] ∧ s2.vf = s.vf ∧ s2.ncalls = s.ncalls + 1 ∧ s2.hs = s.hs := by
            rw [hs2]
            split_ifs <;> exact ⟨rfl, rfl, rfl, rfl⟩
          obtain ⟨e1, e2, e3, e4⟩ := h2
          by_cases hg : P.norm r.2 < P.tolg
          · rw [if_pos hg]
            exact ⟨rfl, x, by change x ∈ s2.evals; rw [e1]; simp, hg⟩
          rw [if_neg hg]
          have hq2 : Quiet P calcfg s2.evals := by
            intro e he
            rw [e1, List.mem_append, List.mem_singleton] at he
            rcases he with he | rfl
            · exact hq e he
            · exact hg
          by_cases hc : cal % P.nh = 0
          · rw [if_pos hc]
            have := ih (cal + 1) (deltax + s.hs * normdx) r.2 (dotF dx r.2) { s2 with hs := s2.hs * P.q2 } hq2
            cases hL : lineSearch P calcfg dx normdx fuel (cal + 1) (deltax + s.hs * normdx) r.2 (dotF dx r.2)
              { s2 with hs := s2.hs * P.q2 } with
            | ret o => rw [hL] at this; exact this
            | done s' g' d' c' =>
                rw [hL] at this
                obtain ⟨a1, a2, a3, a4⟩ := this
                refine ⟨a1, a2.trans e2, by simp only [e3] at a3; omega, fun b1 b2 b3 => a4 b1 ?_ ?_⟩
                · exact mul_nonneg (e4 ▸ b2) b1
                · exact add_nonneg b3 (mul_nonneg b2 hn)
          · rw [if_neg hc]
            have := ih (cal + 1) (deltax + s.hs * normdx) r.2 (dotF dx r.2) s2 hq2
            cases hL : lineSearch P calcfg dx normdx fuel (cal + 1) (deltax + s.hs * normdx) r.2 (dotF dx r.2) s2 with
            | ret o => rw [hL] at this; exact this
            | done s' g' d' c' =>
                rw [hL] at this
                obtain ⟨a1, a2, a3, a4⟩ := this
                refine ⟨a1, a2.trans e2, by omega, fun b1 b2 b3 => a4 b1 (e4 ▸ b2) ?_⟩
                exact add_nonneg b3 (mul_nonneg b2 hn)
        · rw [if_neg hd]
          exact ⟨hq, rfl, rfl, fun _ h1 h2 => ⟨h1, h2⟩⟩
  have := main fuel cal deltax g1 d s hq
  cases hL : lineSearch P calcfg dx normdx fuel cal deltax g1 d s with
  | ret o => rw [hL] at this; exact this
  | done s' g' d' c' =>
      rw [hL] at this
      obtain ⟨a1, a2, a3, a4⟩ := this
      exact ⟨a1, a2, a3, fun b1 b2 => a4 b1 b2 hdx⟩

/-- What is promised about the stop codes. -/
def RalgOut.Codes (P : RalgPar K n) (calcfg : (Fin n → K) → K × (Fin n → K)) (o : RalgOut K n) : Prop :=
  (o.ccode = 2 ↔ ∃ e ∈ o.evals, P.norm (calcfg e).2 < P.tolg) ∧
  (P.tolx ≤ 0 → 0 ≤ P.q1 → 0 ≤ P.q2 → 0 ≤ P.h0 → o.ccode ≠ 3) ∧ (o.ccode = 5 → 502 ≤ o.ncalls)

theorem ralgLoop_codes (P : RalgPar K n) (hnorm : ∀ v, 0 ≤ P.norm v) (calcfg : (Fin n → K) → K × (Fin n → K)) (k : ℕ)
    (s : RalgSt K n) (hq : Quiet P calcfg s.evals) (hc : 1 ≤ s.ncalls)
    (hh : 0 ≤ P.q1 → 0 ≤ P.q2 → 0 ≤ P.h0 → 0 ≤ s.hs) : (ralgLoop P calcfg k s).Codes P calcfg := by
  have quiet : ∀ (s : RalgSt K n) (c : ℕ), Quiet P calcfg s.evals → c ≠ 2 →
      ((s.out c).ccode = 2 ↔ ∃ e ∈ (s.out c).evals, P.norm (calcfg e).2 < P.tolg) := by
    intro s c hq hc
    refine ⟨fun h => absurd h hc, ?_⟩
    rintro ⟨e, he, h⟩
    exact absurd h (hq e he)
  induction k generalizing s with
  | zero =>
      rw [ralgLoop]
      exact ⟨quiet s 4 hq (by norm_num), fun _ _ _ _ h => by simp [RalgSt.out] at h, fun h => by simp [RalgSt.out] at h⟩
  | succ k ih =>
      rw [ralgLoop]
      simp only
      have hline := lineSearch_codes P calcfg (matVecF s.B (P.normalize (matTVec s.B s.g0)))
        (P.norm (matVecF s.B (P.normalize (matTVec s.B s.g0)))) (hnorm _) 501 0 0 (matTVec s.B s.g0) 1
        { s with vf := s.vf.set (P.nsims - 1) s.fr } hq (le_refl _)
      generalize lineSearch P calcfg (matVecF s.B (P.normalize (matTVec s.B s.g0)))
        (P.norm (matVecF s.B (P.normalize (matTVec s.B s.g0)))) 501 0 0 (matTVec s.B s.g0) 1
        { s with vf := s.vf.set (P.nsims - 1) s.fr } = L at hline ⊢
      cases L with
      | ret o =>
          obtain ⟨a1, a2⟩ := hline
          refine ⟨⟨fun _ => a2, fun _ => a1⟩, fun _ _ _ _ h => ?_, fun h => ?_⟩
          · simp only at h; rw [a1] at h; norm_num at h
          · simp only at h; rw [a1] at h; norm_num at h
      | done s1 g1 deltax cal =>
          obtain ⟨a1, a2, a3, a4⟩ := hline
          simp only at a3
          simp only
          by_cases h5 : 500 < cal
          · rw [if_pos h5]
            exact ⟨quiet _ 5 a1 (by norm_num), fun _ _ _ _ h => by simp [RalgSt.out] at h,
              fun _ => by simp only [RalgSt.out]; omega⟩
          rw [if_neg h5]
          have hh1 : 0 ≤ P.q1 → 0 ≤ P.q2 → 0 ≤ P.h0 →
              0 ≤ (if cal = 1 then { s1 with hs := s1.hs * P.q1 } else s1 : RalgSt K n).hs := by
            intro b1 b2 b3
            have := (a4 b2 (hh b1 b2 b3)).1
            split_ifs
            · exact mul_nonneg this b1
            · exact this
          have he : ∀ s2 : RalgSt K n, (if cal = 1 then { s1 with hs := s1.hs * P.q1 } else s1 : RalgSt K n) = s2 →
              Quiet P calcfg s2.evals ∧ 1 ≤ s2.ncalls := by
            rintro s2 rfl
            split_ifs
            · exact ⟨a1, by simp only; omega⟩
            · exact ⟨a1, by omega⟩
          generalize hs2 : (if cal = 1 then { s1 with hs := s1.hs * P.q1 } else s1 : RalgSt K n) = s2 at hh1 ⊢
          obtain ⟨q2, c2⟩ := he s2 hs2
          by_cases h3 : deltax < P.tolx
          · rw [if_pos h3]
            refine ⟨quiet _ 3 q2 (by norm_num), fun b0 b1 b2 b3 _ => ?_, fun h => by simp [RalgSt.out] at h⟩
            exact absurd (h3.trans_le b0) (not_lt.2 (a4 b2 (hh b1 b2 b3)).2)
          rw [if_neg h3]
          split_ifs
          all_goals first
            | exact ⟨quiet _ 1 q2 (by norm_num), fun _ _ _ _ h => by simp [RalgSt.out] at h,
                fun h => by simp [RalgSt.out] at h⟩
            | exact ih _ q2 c2 hh1

theorem set_nonneg {l : List K} (h : ∀ v ∈ l, 0 ≤ v) (i : ℕ) {a : K} (ha : 0 ≤ a) : ∀ v ∈ l.set i a, 0 ≤ v := by
  intro v hv
  rcases List.mem_or_eq_of_mem_set hv with hv | rfl
  · exact h v hv
  · exact ha

/-- The history `vf` before its last entry is overwritten: all others are nonnegative, so the sum after the roll is. -/
theorem roll_nonneg {l : List K} (h : ∀ v ∈ l.dropLast, 0 ≤ v) (fr : K) :
    ∀ v ∈ (npRoll l).set 0 |fr - (npRoll l).headD 0|, 0 ≤ v := by
  unfold npRoll
  cases hl : l.getLast? with
  | none => simp
  | some a =>
      simp only [List.set_cons_zero, List.mem_cons]
      rintro v (rfl | hv)
      · exact abs_nonneg _
      · exact h v hv

theorem ralgLoop_code1 (P : RalgPar K n) (calcfg : (Fin n → K) → K × (Fin n → K)) (htol : P.tolf ≤ 0) (k : ℕ)
    (s : RalgSt K n) (hlen : s.vf.length = P.nsims) (hvf : ∀ v ∈ s.vf, 0 ≤ v) : (ralgLoop P calcfg k s).ccode ≠ 1 := by
  have hvfL : ∀ (fuel cal : ℕ) (dx : Fin n → K) (normdx deltax : K) (g1 : Fin n → K) (d : K) (s : RalgSt K n),
      (match lineSearch P calcfg dx normdx fuel cal deltax g1 d s with
        | .ret o => o.ccode = 2
        | .done s' _ _ _ => s'.vf = s.vf) := by
    intro fuel
    induction fuel with
    | zero => intros; rfl
    | succ fuel ih =>
        intro cal dx normdx deltax g1 d s
        rw [lineSearch]
        by_cases hd : 0 < d
        · rw [if_pos hd]
          simp only
          set x : Fin n → K := fun i => s.x i - s.hs * dx i with hx
          set r := calcfg x with hr
          set s1 : RalgSt K n := { s with x := x, ncalls := s.ncalls + 1, evals := s.evals ++ [x] } with hs1
          set s2 : RalgSt K n := if r.1 < s1.fr then { s1 with fr := r.1, xr := x } else s1 with hs2
          have e2 : s2.vf = s.vf := by
            rw [hs2]
            split_ifs <;> rfl
          by_cases hg : P.norm r.2 < P.tolg
          · rw [if_pos hg]
            rfl
          rw [if_neg hg]
          set s3 : RalgSt K n := if cal % P.nh = 0 then { s2 with hs := s2.hs * P.q2 } else s2 with hs3
          have e3 : s3.vf = s.vf := by
            rw [hs3]
            split_ifs <;> exact e2
          have := ih (cal + 1) dx normdx (deltax + s.hs * normdx) r.2 (dotF dx r.2) s3
          cases hL : lineSearch P calcfg dx normdx fuel (cal + 1) (deltax + s.hs * normdx) r.2 (dotF dx r.2) s3 with
          | ret o => rw [hL] at this; exact this
          | done s' g' d' c' => rw [hL] at this; exact this.trans e3
        · rw [if_neg hd]
  induction k generalizing s with
  | zero => rw [ralgLoop]; simp [RalgSt.out]
  | succ k ih =>
      rw [ralgLoop]
      simp only
      have hline := hvfL 501 0 (matVecF s.B (P.normalize (matTVec s.B s.g0)))
        (P.norm (matVecF s.B (P.normalize (matTVec s.B s.g0)))) 0 (matTVec s.B s.g0) 1
        { s with vf := s.vf.set (P.nsims - 1) s.fr }
      generalize lineSearch P calcfg (matVecF s.B (P.normalize (matTVec s.B s.g0)))
        (P.norm (matVecF s.B (P.normalize (matTVec s.B s.g0)))) 501 0 0 (matTVec s.B s.g0) 1
        { s with vf := s.vf.set (P.nsims - 1) s.fr } = L at hline ⊢
      cases L with
      | ret o => simp only at hline ⊢; omega
      | done s1 g1 deltax cal =>
          simp only at hline ⊢
          have hdrop : ∀ v ∈ s1.vf.dropLast, 0 ≤ v := by
            rw [hline, List.dropLast_eq_take]
            intro v hv
            rw [List.length_set, hlen, List.take_set_of_le (le_refl _)] at hv
            exact hvf v (List.mem_of_mem_take hv)
          have hlen1 : s1.vf.length = P.nsims := by rw [hline]; simpa using hlen
          by_cases h5 : 500 < cal
          · rw [if_pos h5]; simp [RalgSt.out]
          rw [if_neg h5]
          have he : ∀ s2 : RalgSt K n, (if cal = 1 then { s1 with hs := s1.hs * P.q1 } else s1 : RalgSt K n) = s2 →
              s2.vf = s1.vf := by
            rintro s2 rfl
            split_ifs <;> rfl
          generalize hs2 : (if cal = 1 then { s1 with hs := s1.hs * P.q1 } else s1 : RalgSt K n) = s2
          have q2 := he s2 hs2
          rw [← q2] at hdrop hlen1
          by_cases h3 : deltax < P.tolx
          · rw [if_pos h3]; simp [RalgSt.out]
          rw [if_neg h3]
          have hnn := roll_nonneg hdrop s2.fr
          have hsum := List.sum_nonneg hnn
          have hlenr : ((npRoll s2.vf).set 0 |s2.fr - (npRoll s2.vf).headD 0|).length = P.nsims := by
            rw [List.length_set, ← hlen1]
            unfold npRoll
            cases hl : s2.vf.getLast? with
            | none => rw [List.getLast?_eq_none_iff] at hl; rw [hl]
            | some a =>
                have : s2.vf ≠ [] := by rintro h; rw [h] at hl; cases hl
                have := List.length_pos_iff.2 this
                simp only [List.length_cons, List.length_dropLast]
                omega
          by_cases h1 : 1 < |s2.fr|
          · rw [if_pos h1]
            rw [if_neg (not_lt.2 (htol.trans (div_nonneg hsum (abs_nonneg _))))]
            exact ih _ hlenr hnn
          · rw [if_neg h1]
            rw [if_neg (not_lt.2 (htol.trans hsum))]
            exact ih _ hlenr hnn

/-- C35, the stop codes: for nonnegative norms the code is 2 exactly when an evaluated point (the start included) has a
gradient below `tolg`; with `tolx ≤ 0` the code is never 3 and with `tolf ≤ 0` never 1; code 5 means a line search of more
than 500 steps. -/
theorem C35_codes (P : RalgPar K n) (hnorm : ∀ v, 0 ≤ P.norm v) (big : K) (calcfg : (Fin n → K) → K × (Fin n → K))
    (x0 : Fin n → K) :
    let o := ralgb5 P big calcfg x0
    (o.ccode = 2 ↔ ∃ e ∈ o.evals, P.norm (calcfg e).2 < P.tolg) ∧
    (P.tolx ≤ 0 → 0 ≤ P.q1 → 0 ≤ P.q2 → 0 ≤ P.h0 → o.ccode ≠ 3) ∧ (P.tolf ≤ 0 → 0 ≤ big → o.ccode ≠ 1) ∧
    (o.ccode = 5 → 502 ≤ o.ncalls) := by
  intro o
  have key : o.Codes P calcfg ∧ (P.tolf ≤ 0 → 0 ≤ big → o.ccode ≠ 1) := by
    change (ralgb5 P big calcfg x0).Codes P calcfg ∧ (P.tolf ≤ 0 → 0 ≤ big → (ralgb5 P big calcfg x0).ccode ≠ 1)
    rw [ralgb5]
    split_ifs with h
    · refine ⟨⟨⟨fun _ => ⟨x0, by simp [RalgSt.out], h⟩, fun _ => rfl⟩, fun _ _ _ _ h => ?_, fun h => ?_⟩, fun _ _ h => ?_⟩
      all_goals simp [RalgSt.out] at h
    · refine ⟨ralgLoop_codes P hnorm calcfg _ _ ?_ (le_refl _) fun _ _ h => h, fun h1 h2 => ?_⟩
      · intro e he
        simp only [List.mem_singleton] at he
        rw [he]
        exact h
      · refine ralgLoop_code1 P calcfg h1 _ _ (by simp) ?_
        intro v hv
        rw [(List.mem_replicate.1 hv).2]
        exact h2
  exact ⟨key.1.1, key.1.2.1, key.2, key.1.2.2⟩

/-- Parameters for a small run in one variable: `norm = |.|`, `normalize = sign`. -/
def demoPar : RalgPar ℚ 1 where
  tolx := 1 / 1000
  tolg := 1 / 1000
  tolf := 1 / 1000
  maxiter := 3
  alpha := 2
  nsims := 3
  h0 := 1
  nh := 3
  q1 := 9 / 10
  q2 := 11 / 10
  norm v := |v 0|
  normalize v _ := npSign (v 0)

/-- Minimising `|x - 5/2|` from 0: evaluations at 0, 1, 21/10, 32/10, ... -/
example : let o := ralgb5 demoPar 1000000 (fun x => (|x 0 - 5 / 2|, fun _ => npSign (x 0 - 5 / 2))) (fun _ => 0)
    o.fr < 1 / 2 ∧ 4 < o.ncalls ∧ o.ccode = 4 := by decide +kernel

/-- The hypotheses of `C35_codes` hold for the demonstration; a start with small gradient gives code 2 and one
evaluation. -/
example : (∀ v, 0 ≤ demoPar.norm v) ∧ demoPar.tolx ≤ 1 / 1000 ∧
    (ralgb5 demoPar 1000000 (fun x => (|x 0|, fun _ => npSign (x 0))) (fun _ => 0)).ccode = 2 ∧
    (ralgb5 demoPar 1000000 (fun x => (|x 0|, fun _ => npSign (x 0))) (fun _ => 0)).ncalls = 1 :=
  ⟨fun v => abs_nonneg (v 0), le_refl _, by decide +kernel, by decide +kernel⟩

/-! ## C36 -/

/-- The penalty is nonnegative for a nonnegative factor. -/
theorem penalty_nonneg (rows : Rows K n) (mu : K) (hmu : 0 ≤ mu) (x : Fin n → K) : 0 ≤ linearPenalty rows mu x :=
  mul_nonneg hmu (sum_excess rows x).1

/-- C36: the value returned by `maximize` is the functional at the returned point and is at least the functional at
the starting point (no linear constraint; whatever the endpoint views return). -/
theorem C36_maximize (F : RecFun) (P : RalgPar K n) (big : K) (hm : 0 < m) (hn : 0 < n) (A : Fin m → Fin n → Iv K)
    (b : Fin m → Iv K) (w : Fin m → K) (I S : Fin m → Fin n → K) (x0 : Fin n → K) (hA : ∀ i j, Ordinary (A i j)) :
    ∃ o, F.maximize P big ((recData A b w).withViews I S) none x0 = .ok o ∧
      F.value A b w o.xr = .ok o.fr ∧ ∀ v0, F.value A b w x0 = .ok v0 → v0 ≤ o.fr := by
  choose f g h1 h2 using fun x => C33_objective_is_minus_value F hm hn A b w x I S hA
  obtain ⟨⟨_, q2, _, q4⟩, _⟩ := C35_ralgb5 P big
    (F.objTotal ((recData A b w).withViews I S) none) x0
  refine ⟨_, by rw [RecFun.maximize, RecFun.objective, h1], ?_, ?_⟩
  · simp only
    rw [q2, h2]
    simp only [RecFun.objTotal, RecFun.objective, h1]
  · intro v0 hv
    rw [h2] at hv
    cases hv
    simp only
    simp only [RecFun.objTotal, RecFun.objective, h1] at q4
    exact neg_le_neg q4

/-- C36 with a linear constraint and a nonnegative factor: the returned value is the functional at the returned
point minus the penalty there; in particular it is a lower bound of the functional, and at least the functional at a
feasible starting point. -/
theorem C36_maximize_constrained (F : RecFun) (P : RalgPar K n) (big : K) (hm : 0 < m) (hn : 0 < n)
    (A : Fin m → Fin n → Iv K) (b : Fin m → Iv K) (w : Fin m → K) (I S : Fin m → Fin n → K) (rows : Rows K n) (mu : K)
    (hmu : 0 ≤ mu) (x0 : Fin n → K) (hA : ∀ i j, Ordinary (A i j)) :
    ∃ o v, F.maximize P big ((recData A b w).withViews I S) (some (rows, mu)) x0 = .ok o ∧
      F.value A b w o.xr = .ok v ∧ o.fr = v - linearPenalty rows mu o.xr ∧ o.fr ≤ v ∧
      ∀ v0, F.value A b w x0 = .ok v0 → RowsOK rows x0 → v0 ≤ o.fr := by
  choose f g h1 h2 using fun x => C33_objective_is_minus_value F hm hn A b w x I S hA
  obtain ⟨⟨_, q2, _, q4⟩, _⟩ := C35_ralgb5 P big
    (F.objTotal ((recData A b w).withViews I S) (some (rows, mu))) x0
  have hobj : ∀ x, F.objective ((recData A b w).withViews I S) (some (rows, mu)) x
      = .ok (f x + linearPenalty rows mu x, fun j => g x j + linearPenaltyGrad rows mu x j) := by
    intro x
    simp only [RecFun.objective, calcfgConstr, h1, Except.map]
  have htot : F.objTotal ((recData A b w).withViews I S) (some (rows, mu)) =
      fun x => (f x + linearPenalty rows mu x, fun j => g x j + linearPenaltyGrad rows mu x j) := by
    funext x
    rw [RecFun.objTotal, hobj]
  rw [htot] at q2 q4
  refine ⟨_, _, by rw [RecFun.maximize, hobj], h2 _, ?_, ?_, ?_⟩
  · simp only [htot]
    rw [q2]
    ring
  · simp only [htot]
    rw [q2]
    have := penalty_nonneg rows mu hmu (ralgb5 P big (fun x => (f x + linearPenalty rows mu x, fun j =>
      g x j + linearPenaltyGrad rows mu x j)) x0).xr
    linarith
  · intro v0 hv hok
    rw [h2] at hv
    cases hv
    simp only [htot]
    have : linearPenalty rows mu x0 = 0 := by rw [linearPenalty, (sum_excess rows x0).2.mpr hok, mul_zero]
    beta_reduce at q4
    simp only [this, add_zero] at q4
    exact neg_le_neg q4

/-- C36: a nonnegative value returned by `Tol.maximize` certifies that the returned point is a tolerable solution,
one returned by `Uni.maximize` that it is a united solution, with and without linear constraints. -/
theorem C36_certificate (P : RalgPar K n) (big : K) (hm : 0 < m) (hn : 0 < n) (A : Fin m → Fin n → Iv K)
    (b : Fin m → Iv K) (w : Fin m → K) (hw : ∀ i, 0 < w i) (I S : Fin m → Fin n → K) (con : Option (Rows K n × K))
    (hcon : ∀ c, con = some c → 0 ≤ c.2) (x0 : Fin n → K) (hA : ∀ i j, Ordinary (A i j)) (o : RalgOut K n) :
    (RecFun.tol.maximize P big ((recData A b w).withViews I S) con x0 = .ok o → 0 ≤ o.fr →
      Tolerable A b o.xr) ∧
    (RecFun.uni.maximize P big ((recData A b w).withViews I S) con x0 = .ok o → 0 ≤ o.fr →
      United A b o.xr) := by
  have key : ∀ F : RecFun, F.maximize P big ((recData A b w).withViews I S) con x0 = .ok o →
      ∃ v, F.value A b w o.xr = .ok v ∧ o.fr ≤ v := by
    intro F h
    cases con with
    | none =>
      obtain ⟨o', h1, h2, _⟩ := C36_maximize F P big hm hn A b w I S x0 hA
      rw [h] at h1
      cases h1
      exact ⟨_, h2, le_refl _⟩
    | some c =>
      obtain ⟨o', v, h1, h2, _, h3, _⟩ := C36_maximize_constrained F P big hm hn A b w I S c.1 c.2 (hcon c rfl) x0 hA
      rw [h] at h1
      cases h1
      exact ⟨v, h2, h3⟩
  constructor
  · intro h h0
    obtain ⟨v, h1, h2⟩ := key .tol h
    obtain ⟨v', h3, h4⟩ := C30_tol_iff_tolerable hm hn A b w o.xr hA hw
    change tolValue Rnd.exact A b w o.xr = _ at h1
    rw [h1] at h3
    cases h3
    exact h4.mp (h0.trans h2)
  · intro h h0
    obtain ⟨v, h1, h2⟩ := key .uni h
    obtain ⟨v', h3, h4⟩ := C31_uni_iff_united hm hn A b w o.xr hA hw
    change uniValue Rnd.exact A b w o.xr = _ at h1
    rw [h1] at h3
    cases h3
    exact h4.mp (h0.trans h2)

/-- `[1,2] x = [1,4]` from `x = 3`: the returned value is nonnegative. -/
example : (RecFun.tol.maximize demoPar 1000000 (recData (fun _ _ => ⟨.classical, 1, 2⟩ : Fin 1 → Fin 1 → Iv ℚ)
    (fun _ => ⟨.classical, 1, 4⟩) (fun _ => 1)) none (fun _ => 3)).map (fun o => decide (0 ≤ o.fr)) = .ok true := by
  decide +kernel

end IntvalPy
