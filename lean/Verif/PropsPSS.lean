import Verif.PropsKdiv
import Verif.PropsGauss
import Verif.PropsRohn
import Verif.ProofsLp
import Mathlib.Data.Fin.VecNotation
import Mathlib.Tactic.FinCases

/-!
# PSS gives valid bounds after any number of passes (C52)
-/

set_option autoImplicit false
set_option linter.unusedSectionVars false

namespace IntvalPy

open Spec

variable {K : Type*} [Field K] [LinearOrder K] [IsStrictOrderedRing K]

/-! ## Omega -/

/-- `t` is inside an intersection computed so far. -/
def InOpt (r : Option (K × K)) (t : K) : Prop := ∃ p, r = some p ∧ p.1 ≤ t ∧ t ≤ p.2

/-- The list of intersections contains `t` where it should: in the only one, or in the first of two for a negative
number and in the second for a positive one. -/
inductive ResHas (t : K) : List (Option (K × K)) → Prop
  | one (r : Option (K × K)) (h : InOpt r t) : ResHas t [r]
  | two (r s : Option (K × K)) (h : (t < 0 ∧ InOpt r t) ∨ (0 < t ∧ InOpt s t)) : ResHas t [r, s]

/-- The pieces contain `t` in the same sense. -/
inductive PieceHas (t : K) : List (XIv K) → Prop
  | one (p : XIv K) (h : p.Mem t) : PieceHas t [p]
  | two (p q : XIv K) (h : (t < 0 ∧ p.Mem t) ∨ (0 < t ∧ q.Mem t)) : PieceHas t [p, q]

theorem interX_has {R : Rnd K} (hnr : ∀ x, R.nr x = x) {y : XIv K} {r : Option (K × K)} {t : K} (hr : InOpt r t)
    (hy : y.Mem t) : InOpt (interX R y r) t := by
  obtain ⟨⟨l, h⟩, rfl, h1, h2⟩ := hr
  unfold interX
  dsimp only at h1 h2 ⊢
  have hs : y.sup l ≤ t := by
    unfold XIv.sup
    split
    · exact h1
    · next c hc => split_ifs
                   · exact hy.1 c hc
                   · exact h1
  have hi : t ≤ y.inf h := by
    unfold XIv.inf
    split
    · exact h2
    · next c hc => split_ifs
                   · exact h2
                   · exact hy.2 c hc
  rw [hnr, if_pos (by
    have : (0 : K) ≤ interTol := by unfold interTol; positivity
    linarith), if_neg (not_lt.2 (hs.trans hi))]
  exact ⟨_, rfl, hs, hi⟩

theorem interR_has {R : Rnd K} (hnr : ∀ x, R.nr x = x) {res : List (Option (K × K))} {ps : List (XIv K)} {t : K}
    (hr : ResHas t res) (hp : PieceHas t ps) : ResHas t (interR R res ps) := by
  cases hr with
  | one r h =>
      cases hp with
      | one p h' => exact .one _ (interX_has hnr h h')
      | two p q h' => exact .two _ _ (h'.imp (fun h' => ⟨h'.1, interX_has hnr h h'.2⟩)
          fun h' => ⟨h'.1, interX_has hnr h h'.2⟩)
  | two r s h =>
      cases hp with
      | one p h' => exact .two _ _ (h.imp (fun h => ⟨h.1, interX_has hnr h.2 h'⟩)
          fun h => ⟨h.1, interX_has hnr h.2 h'⟩)
      | two p q h' =>
          refine .two _ _ ?_
          rcases h with h | h
          · rcases h' with h' | h'
            · exact Or.inl ⟨h.1, interX_has hnr h.2 h'.2⟩
            · exact absurd h.1 (not_lt.2 h'.1.le)
          · rcases h' with h' | h'
            · exact absurd h.1 (not_lt.2 h'.1.le)
            · exact Or.inr ⟨h.1, interX_has hnr h.2 h'.2⟩

theorem interR_length {R : Rnd K} {res : List (Option (K × K))} {ps : List (XIv K)} (hr : res.length = 1)
    (hp : ps.length = 1) : (interR R res ps).length = 1 := by
  obtain ⟨r, rfl⟩ := List.length_eq_one_iff.1 hr
  obtain ⟨p, rfl⟩ := List.length_eq_one_iff.1 hp
  rfl

theorem foldl_interR_has {R : Rnd K} (hnr : ∀ x, R.nr x = x) {t : K} (pss : List (List (XIv K)))
    (hp : ∀ ps ∈ pss, PieceHas t ps) (res : List (Option (K × K))) (hr : ResHas t res) :
    ResHas t (pss.foldl (interR R) res) := by
  induction pss generalizing res with
  | nil => exact hr
  | cons ps pss ih =>
      exact ih (fun q hq => hp q (List.mem_cons_of_mem _ hq)) _ (interR_has hnr hr (hp ps List.mem_cons_self))

theorem foldl_interR_length {R : Rnd K} (pss : List (List (XIv K))) (hp : ∀ ps ∈ pss, ps.length = 1)
    (res : List (Option (K × K))) (hr : res.length = 1) : (pss.foldl (interR R) res).length = 1 := by
  induction pss generalizing res with
  | nil => exact hr
  | cons ps pss ih =>
      exact ih (fun q hq => hp q (List.mem_cons_of_mem _ hq)) _ (interR_length hr (hp ps List.mem_cons_self))

/-- The value extracted is a lower bound of every number contained. -/
theorem omegaVal_le {two : Bool} {res : List (Option (K × K))} {t : K} (h : ResHas t res)
    (hl : two = false → res.length = 1) : ∃ q, omegaVal two res = some q ∧ q ≤ t := by
  cases h with
  | one r h =>
      obtain ⟨p, rfl, h1, -⟩ := h
      refine ⟨p.1, ?_, h1⟩
      cases two <;> simp [omegaVal, nanMin]
  | two r s h =>
      cases two with
      | false => cases hl rfl
      | true =>
          rcases h with ⟨-, p, rfl, h1, -⟩ | ⟨-, p, rfl, h1, -⟩
          · cases s with
            | none => exact ⟨p.1, by simp [omegaVal, nanMax], h1⟩
            | some p' => exact ⟨min p.1 p'.1, by simp [omegaVal, nanMin], (min_le_left _ _).trans h1⟩
          · cases r with
            | none => exact ⟨p.1, by simp [omegaVal, nanMax], h1⟩
            | some p' => exact ⟨min p'.1 p.1, by simp [omegaVal, nanMin], (min_le_right _ _).trans h1⟩

theorem mapM_ok_mem {α β : Type*} (f : α → Except Err β) (l : List α) (ys : List β) (h : l.mapM f = .ok ys) :
    ∀ y ∈ ys, ∃ x ∈ l, f x = .ok y := by
  induction l generalizing ys with
  | nil =>
      injection h with h
      subst h
      intro y hy
      cases hy
  | cons a l ih =>
      rw [List.mapM_cons] at h
      cases ha : f a with
      | error e => rw [ha] at h; cases h
      | ok b =>
          rw [ha] at h
          cases hl : l.mapM f with
          | error e => rw [hl] at h; cases h
          | ok bs =>
              rw [hl] at h
              injection h with h
              subst h
              intro y hy
              rcases List.mem_cons.1 hy with rfl | hy
              · exact ⟨a, List.mem_cons_self, ha⟩
              · obtain ⟨x, hx, he⟩ := ih bs hl y hy
                exact ⟨x, List.mem_cons_of_mem _ hx, he⟩

theorem mem_zero_of_not_classic {R : Rnd K} (hnr : ∀ x, R.nr x = x) {z : Iv K} (hz : z.a ≤ z.b)
    (h : classicRow R z = false) : (0 : K) ∈ z := by
  have h' : ¬ 0 < z.a * z.b := fun hc => by rw [(classicRow_iff hnr z).2 hc] at h; cases h
  rw [Iv.mem_def]
  by_contra hn
  rw [not_and_or, not_le, not_le] at hn
  rcases hn with hn | hn
  · exact h' (mul_pos hn (hn.trans_le hz))
  · exact h' (mul_pos_of_neg_of_neg (hz.trans_lt hn) hn)

/-- `Omega` returns a lower bound of every number `t` in `V[nu]` that is a quotient in every row; with any such number
the value is not `infinity`. -/
theorem omegaFn_le {R : Rnd K} (hnr : ∀ x, R.nr x = x) {n : ℕ} (Vnu : Iv K) (bAr Anu : Fin n → Iv K)
    (hb : ∀ i, Ordinary (bAr i)) (hA : ∀ i, Ordinary (Anu i)) (t : K) (ht : t ∈ Vnu) (hq : ∀ i, Quot (bAr i) (Anu i) t)
    (o : Option K) (h : omegaFn R Vnu bAr Anu = .ok o) : ∃ q, o = some q ∧ q ≤ t := by
  unfold omegaFn at h
  split at h
  · cases h
  · next pdiv hpd =>
    have hpieces : ∀ ps ∈ pdiv, PieceHas t ps := by
      intro ps hps
      obtain ⟨k, hk, he⟩ := mapM_ok_mem _ _ _ hpd ps hps
      have hcl : classicRow R (Anu k) = false := by simpa using (List.mem_filter.1 hk).2
      have h0 := mem_zero_of_not_classic hnr (hA k).2 hcl
      have hspec := kdiv_spec hnr (bAr k) (Anu k) (hb k).2 (hA k).2 h0 ps he
      cases hspec with
      | one p hp => exact .one p ((hp t).2 (hq k))
      | two p q hp hq' hn =>
          have hna : ¬ (0 : K) ∈ bAr k := by
            intro hc
            unfold kdiv at he
            rw [if_pos (containsNum_iff.2 hc)] at he
            cases he
          refine .two p q ?_
          rcases lt_or_gt_of_ne (quot_ne_zero hna (hq k)) with h' | h'
          · exact Or.inl ⟨h', (hp t).2 ⟨h', hq k⟩⟩
          · exact Or.inr ⟨h', (hq' t).2 ⟨h', hq k⟩⟩
    have hlen : ((List.finRange n).any fun k => numFunc R (Anu k) == 2) = false → ∀ ps ∈ pdiv, ps.length = 1 := by
      intro hf ps hps
      obtain ⟨k, hk, he⟩ := mapM_ok_mem _ _ _ hpd ps hps
      have hcl : classicRow R (Anu k) = false := by simpa using (List.mem_filter.1 hk).2
      have h0 := mem_zero_of_not_classic hnr (hA k).2 hcl
      cases kdiv_spec hnr (bAr k) (Anu k) (hb k).2 (hA k).2 h0 ps he with
      | one p hp => rfl
      | two p q hp hq' hn =>
          have := List.any_eq_false.1 hf k (List.mem_finRange k)
          rw [hn] at this
          exact absurd rfl this
    have hdivs : ∀ d ∈ classicDivs R bAr Anu, XIv.Mem d t := by
      intro d hd
      unfold classicDivs at hd
      split at hd
      · next ds hds =>
        obtain ⟨z, hz, rfl⟩ := List.mem_map.1 hd
        obtain ⟨k, hk, he⟩ := mapM_ok_mem _ _ _ hds z hz
        have hcl : classicRow R (Anu k) = true := (List.mem_filter.1 hk).2
        have hne : ∀ b' ∈ Anu k, b' ≠ 0 := by
          rintro b' hb' rfl
          have hp := (classicRow_iff hnr _).1 hcl
          exact absurd hp (not_lt.2 (mul_nonpos_of_nonpos_of_nonneg hb'.1 hb'.2))
        obtain ⟨a', ha', b', hb', rfl⟩ := hq k
        have := C03_div_encloses R (bAr k) (Anu k) z (hb k) (hA k) he t
          ⟨_, ha', b', hb', by rw [mul_div_cancel_left₀ _ (hne b' hb')]⟩
        rw [Iv.mem_def] at this
        simp [XIv.Mem, this]
      · cases hd
    have hV : ResHas t [some (Vnu.a, Vnu.b)] := .one _ ⟨_, rfl, ht.1, ht.2⟩
    have one : ∀ d ∈ classicDivs R bAr Anu, PieceHas t [d] := fun d hd => .one d (hdivs d hd)
    dsimp only at h
    split at h
    · next pdiv' d ds hcd =>
      injection h with h
      subst h
      refine omegaVal_le (foldl_interR_has hnr _ hpieces _ ?_) fun hf => foldl_interR_length _ (hlen hf) _ ?_
      · have := foldl_interR_has hnr (t := t) (ds.map fun d => [d]) (by
          intro ps hps
          obtain ⟨d', hd', rfl⟩ := List.mem_map.1 hps
          exact one d' (hcd ▸ List.mem_cons_of_mem _ hd')) _
          (interR_has hnr hV (one d (hcd ▸ List.mem_cons_self)))
        rw [List.foldl_map] at this
        exact this
      · have := foldl_interR_length (R := R) (ds.map fun d => [d]) (by
          intro ps hps
          obtain ⟨d', hd', rfl⟩ := List.mem_map.1 hps
          rfl) (interR R [some (Vnu.a, Vnu.b)] [d]) (interR_length rfl rfl)
        rw [List.foldl_map] at this
        exact this
    · next p ps hcd =>
      injection h with h
      subst h
      exact omegaVal_le (foldl_interR_has hnr _ hpieces _ (interR_has hnr hV (hpieces p List.mem_cons_self)))
        fun hf => foldl_interR_length _ (hlen hf) _ (interR_length rfl (hlen hf p List.mem_cons_self))
    · cases h

/-! ## ExactOmega -/

theorem mid_rad_bound {R : Rnd K} (hnr : ∀ x, R.nr x = x) {z : Iv K} {a : K} (h : a ∈ z) :
    |a - z.mid R| ≤ z.rad R := by
  rw [Iv.mem_def] at h
  unfold Iv.mid Iv.rad Iv.wid
  simp only [hnr]
  rw [abs_le]
  constructor <;> linarith [h.1, h.2]

theorem npSign_mul_abs {s x : K} (h : (0 < s ∧ 0 ≤ x) ∨ (s < 0 ∧ x ≤ 0) ∨ (s = 0 ∧ x = 0)) : npSign s * |x| = x := by
  unfold npSign
  rcases h with ⟨hs, hx⟩ | ⟨hs, hx⟩ | ⟨hs, hx⟩
  · rw [if_pos hs, one_mul, abs_of_nonneg hx]
  · rw [if_neg (not_lt.2 hs.le), if_pos hs, abs_of_nonpos hx]; ring
  · rw [hx]; simp

/-- A solution with the signs of the program gives a feasible point `|x|`. -/
theorem pssLp_feasible {R : Rnd K} (hnr : ∀ x, R.nr x = x) {n m : ℕ} (A : Fin n → Fin (m + 1) → Iv K)
    (b : Fin n → Iv K) (nu : Fin (m + 1)) (Q : Fin m → Iv K) (x : Fin (m + 1) → K) (hx : United A b x)
    (hQ : ∀ j, x (nu.succAbove j) ∈ Q j) (h0 : ∀ j, ¬ (0 : K) ∈ Q j) (s : K)
    (hs : (0 < s ∧ 0 ≤ x nu) ∨ (s < 0 ∧ x nu ≤ 0) ∨ (s = 0 ∧ x nu = 0)) (hbig : |x nu| ≤ 10 ^ 15)
    (r : PssRow n m) :
    ∑ j, pssLpA R A (nu.insertNth (α := fun _ => K) (npSign s) fun j => npSign (Q j).a) r j * |x j| ≤
      pssLpB b nu Q r := by
  set S : Fin (m + 1) → K := nu.insertNth (α := fun _ => K) (npSign s) fun j => npSign (Q j).a with hS
  have hSx : ∀ j, S j * |x j| = x j := by
    intro j
    refine Fin.succAboveCases nu ?_ (fun k => ?_) j
    · rw [hS, Fin.insertNth_apply_same]
      exact npSign_mul_abs hs
    · rw [hS, Fin.insertNth_apply_succAbove]
      refine npSign_mul_abs ?_
      have h1 := hQ k
      rw [Iv.mem_def] at h1
      rcases lt_or_ge 0 (Q k).a with h2 | h2
      · exact Or.inl ⟨h2, h2.le.trans h1.1⟩
      · have h3 : (Q k).b < 0 := by
          by_contra hc
          exact h0 k ⟨h2, not_lt.1 hc⟩
        exact Or.inr (Or.inl ⟨lt_of_le_of_lt (h1.1.trans h1.2) h3, h1.2.trans h3.le⟩)
  obtain ⟨A', hA', b', hb', he⟩ := hx
  have hterm : ∀ i j, (A i j).mid R * S j * |x j| - (A i j).rad R * |x j| ≤ A' i j * x j ∧
      A' i j * x j ≤ (A i j).mid R * S j * |x j| + (A i j).rad R * |x j| := by
    intro i j
    have h1 := mid_rad_bound hnr (hA' i j)
    have h2 : |(A' i j - (A i j).mid R) * x j| ≤ (A i j).rad R * |x j| := by
      rw [abs_mul]
      exact mul_le_mul_of_nonneg_right h1 (abs_nonneg _)
    rw [abs_le] at h2
    have h3 : (A i j).mid R * S j * |x j| = (A i j).mid R * x j := by rw [mul_assoc, hSx]
    rw [h3]
    constructor <;> linarith [h2.1, h2.2]
  rcases r with i | i | k | k | k
  · have : ∑ j, pssLpA R A S (.inl i) j * |x j| ≤ ∑ j, A' i j * x j := by
      refine Finset.sum_le_sum fun j _ => ?_
      simp only [pssLpA]
      linarith [(hterm i j).1]
    exact this.trans ((he i).le.trans (hb' i).2)
  · have : ∑ j, pssLpA R A S (.inr (.inl i)) j * |x j| ≤ ∑ j, -(A' i j * x j) := by
      refine Finset.sum_le_sum fun j _ => ?_
      simp only [pssLpA]
      linarith [(hterm i j).2]
    refine this.trans ?_
    rw [Finset.sum_neg_distrib]
    simp only [pssLpB]
    have h1 : ∑ j, A' i j * x j = b' i := he i
    rw [h1]
    linarith [(hb' i).1]
  · simp only [pssLpA, pssLpB, ite_mul, zero_mul, Finset.sum_ite_eq, Finset.mem_univ, if_true, neg_mul, hSx]
    refine Fin.succAboveCases nu ?_ (fun k => ?_) k
    · rw [Fin.insertNth_apply_same]
      linarith [(abs_le.1 hbig).1]
    · rw [Fin.insertNth_apply_succAbove]
      linarith [(hQ k).1]
  · simp only [pssLpA, pssLpB, ite_mul, zero_mul, Finset.sum_ite_eq, Finset.mem_univ, if_true, hSx]
    refine Fin.succAboveCases nu ?_ (fun k => ?_) k
    · rw [Fin.insertNth_apply_same]
      exact (abs_le.1 hbig).2
    · rw [Fin.insertNth_apply_succAbove]
      exact (hQ k).2
  · simp only [pssLpA, pssLpB, ite_mul, zero_mul, Finset.sum_ite_eq, Finset.mem_univ, if_true, neg_mul, one_mul]
    linarith [abs_nonneg (x k)]

theorem sum_single_mul {m : ℕ} (nu : Fin m) (z : Fin m → K) (s : K) :
    ∑ j, z j * (if j = nu then s else 0) = z nu * s := by
  simp [Finset.sum_ite_eq']

/-- With a suitable sign the linear program succeeds and its value is a lower bound. -/
theorem pssLp_le {R : Rnd K} (hnr : ∀ x, R.nr x = x) {n m : ℕ} (lp : LpSolver K (PssRow n m) (Fin (m + 1)))
    (hlp : LpOK lp) (hc : LpComplete lp) (A : Fin n → Fin (m + 1) → Iv K)
    (b : Fin n → Iv K) (nu : Fin (m + 1)) (Q : Fin m → Iv K) (x : Fin (m + 1) → K) (hx : United A b x)
    (hQ : ∀ j, x (nu.succAbove j) ∈ Q j) (h0 : ∀ j, ¬ (0 : K) ∈ Q j) (s : K)
    (hs : (0 < s ∧ 0 ≤ x nu) ∨ (s < 0 ∧ x nu ≤ 0) ∨ (s = 0 ∧ x nu = 0)) (hbig : |x nu| ≤ 10 ^ 15) :
    ∃ v, pssLp R lp A b nu Q (npSign s) = .ok v ∧ v ≤ x nu := by
  have hf := pssLp_feasible hnr A b nu Q x hx hQ h0 s hs hbig
  set S : Fin (m + 1) → K := nu.insertNth (α := fun _ => K) (npSign s) fun j => npSign (Q j).a with hS
  set c : Fin (m + 1) → K := fun j => if j = nu then npSign s else 0 with hcdef
  have hobj : ∀ z : Fin (m + 1) → K, ∑ j, c j * z j = npSign s * z nu := by
    intro z
    rw [hcdef]
    simp [Finset.sum_ite_eq']
  obtain ⟨z₀, hz₀, hopt⟩ := Lp.attains c (pssLpA R A S) (pssLpB b nu Q) (fun j => |x j|) hf (-10 ^ 15) (by
    intro z' hz'
    have := hz' (.inr (.inr (.inl nu)))
    simp only [pssLpA, pssLpB, ite_mul, zero_mul, Finset.sum_ite_eq, Finset.mem_univ, if_true,
      Fin.insertNth_apply_same] at this
    rw [hobj]
    rw [hS, Fin.insertNth_apply_same] at this
    linarith)
  obtain ⟨z, hz⟩ := hc c _ _ z₀ hz₀ hopt
  refine ⟨∑ j, z j * c j, ?_, ?_⟩
  · unfold pssLp
    dsimp only
    rw [← hS, ← hcdef, hz]
    rfl
  · have h1 := (hlp c _ _ z hz).2 _ hf
    rw [hobj, hobj, npSign_mul_abs hs] at h1
    rw [sum_single_mul]
    linarith

/-- `ExactOmega` returns a lower bound of component `nu` of every solution with the other components in a box without
zeros. -/
theorem exactOmega_le {R : Rnd K} (hnr : ∀ x, R.nr x = x) {n m : ℕ} (lp : LpSolver K (PssRow n m) (Fin (m + 1)))
    (hlp : LpOK lp) (hc : LpComplete lp) (A : Fin n → Fin (m + 1) → Iv K)
    (b : Fin n → Iv K) (nu : Fin (m + 1)) (Vnu : Iv K) (hV : -10 ^ 15 ≤ Vnu.a ∧ Vnu.b ≤ 10 ^ 15) (Q : Fin m → Iv K)
    (x : Fin (m + 1) → K) (hx : United A b x) (hxV : x nu ∈ Vnu)
    (hQ : ∀ j, x (nu.succAbove j) ∈ Q j) (h0 : ∀ j, ¬ (0 : K) ∈ Q j) :
    exactOmega R lp A b nu Vnu Q ≤ x nu := by
  rw [Iv.mem_def] at hxV
  have hbig : |x nu| ≤ 10 ^ 15 := abs_le.2 ⟨hV.1.trans hxV.1, hxV.2.trans hV.2⟩
  by_cases hs : (0 < Vnu.a ∧ 0 ≤ x nu) ∨ (Vnu.a < 0 ∧ x nu ≤ 0) ∨ (Vnu.a = 0 ∧ x nu = 0)
  · obtain ⟨v, h1, h2⟩ := pssLp_le hnr lp hlp hc A b nu Q x hx hQ h0 _ hs hbig
    unfold exactOmega
    rw [h1]
    exact h2
  · -- the lower endpoint is not positive and `x nu` is positive
    have ha : Vnu.a ≤ 0 := by
      by_contra hcon
      exact hs (Or.inl ⟨not_le.1 hcon, (not_le.1 hcon).le.trans hxV.1⟩)
    have hxpos : 0 < x nu := by
      by_contra hcon
      rw [not_lt] at hcon
      rcases lt_or_eq_of_le ha with h | h
      · exact hs (Or.inr (Or.inl ⟨h, hcon⟩))
      · exact hs (Or.inr (Or.inr ⟨h, le_antisymm hcon (h ▸ hxV.1)⟩))
    unfold exactOmega
    cases h1 : pssLp R lp A b nu Q (npSign Vnu.a) with
    | ok v =>
        dsimp only
        unfold pssLp at h1
        dsimp only at h1
        set S : Fin (m + 1) → K := nu.insertNth (α := fun _ => K) (npSign Vnu.a) fun j => npSign (Q j).a
        cases h2 : lp (fun j => if j = nu then npSign Vnu.a else 0) (pssLpA R A S) (pssLpB b nu Q) with
        | error e => rw [h2] at h1; cases h1
        | ok z =>
            rw [h2] at h1
            injection h1 with h1
            dsimp only at h1
            rw [sum_single_mul] at h1
            have h3 := (hlp _ _ _ z h2).1 (.inr (.inr (.inr (.inr nu))))
            simp only [pssLpA, pssLpB, ite_mul, zero_mul, Finset.sum_ite_eq, Finset.mem_univ, if_true, neg_mul,
              one_mul] at h3
            have h4 : npSign Vnu.a ≤ 0 := by
              unfold npSign
              rw [if_neg (not_lt.2 ha)]
              split_ifs <;> norm_num
            rw [← h1]
            nlinarith [mul_nonpos_of_nonneg_of_nonpos (show 0 ≤ z nu by linarith) h4]
    | error e =>
        dsimp only
        obtain ⟨v, h2, h3⟩ := pssLp_le hnr lp hlp hc A b nu Q x hx hQ h0 Vnu.b
          (Or.inl ⟨hxpos.trans_le hxV.2, hxpos.le⟩) hbig
        rw [h2]
        exact h3

/-! ## The working list -/

/-- Sorted by the lower bounds. -/
def SortedQ {m : ℕ} (L : List (PssEl K m)) : Prop := L.Pairwise fun e f => e.q ≤ f.q

theorem mem_pssInsert {m : ℕ} (e f : PssEl K m) (L : List (PssEl K m)) : f ∈ pssInsert e L ↔ f = e ∨ f ∈ L := by
  induction L with
  | nil => simp [pssInsert]
  | cons h t ih =>
      unfold pssInsert
      split_ifs
      · rw [List.mem_cons, ih, List.mem_cons]; tauto
      · rw [List.mem_cons]

theorem sortedQ_insert {m : ℕ} (e : PssEl K m) (L : List (PssEl K m)) (h : SortedQ L) : SortedQ (pssInsert e L) := by
  induction L with
  | nil => exact List.pairwise_singleton _ _
  | cons a t ih =>
      obtain ⟨h1, h2⟩ := List.pairwise_cons.1 h
      unfold pssInsert
      split_ifs with hlt
      · refine List.pairwise_cons.2 ⟨fun f hf => ?_, ih h2⟩
        rcases (mem_pssInsert e f t).1 hf with rfl | hf
        · exact hlt.le
        · exact h1 f hf
      · refine List.pairwise_cons.2 ⟨fun f hf => ?_, h⟩
        rcases List.mem_cons.1 hf with rfl | hf
        · exact not_lt.1 hlt
        · exact (not_lt.1 hlt).trans (h1 f hf)

/-- The position used by `pssInsert` is the one found by the binary search of `bisect_left` in a sorted list: all
elements before it are smaller, all from it on are not. -/
theorem pssInsert_bisect {m : ℕ} (e : PssEl K m) (L : List (PssEl K m)) (h : SortedQ L) :
    ∃ u v, L = u ++ v ∧ pssInsert e L = u ++ e :: v ∧ (∀ f ∈ u, f.q < e.q) ∧ ∀ f ∈ v, e.q ≤ f.q := by
  induction L with
  | nil => exact ⟨[], [], rfl, rfl, by simp, by simp⟩
  | cons a t ih =>
      obtain ⟨h1, h2⟩ := List.pairwise_cons.1 h
      unfold pssInsert
      split_ifs with hlt
      · obtain ⟨u, v, rfl, h4, h5, h6⟩ := ih h2
        refine ⟨a :: u, v, rfl, by rw [h4]; rfl, fun f hf => ?_, h6⟩
        rcases List.mem_cons.1 hf with rfl | hf
        · exact hlt
        · exact h5 f hf
      · refine ⟨[], a :: t, rfl, rfl, by simp, fun f hf => ?_⟩
        rcases List.mem_cons.1 hf with rfl | hf
        · exact not_lt.1 hlt
        · exact (not_lt.1 hlt).trans (h1 f hf)

/-- A solution accounted for: it lies in a listed box whose bound is valid for it, or its component is not below
`omega`. -/
def Covered {n m : ℕ} (P : PssArg K n m) (omega : K) (L : List (PssEl K m)) (x : Fin (m + 1) → K) : Prop :=
  (∃ e ∈ L, (∀ j, x (P.nu.succAbove j) ∈ e.Q j) ∧ e.q ≤ x P.nu) ∨ omega ≤ x P.nu

/-- What is assumed of the data of `algo`. -/
structure PssArg.OK {n m : ℕ} (P : PssArg K n m) : Prop where
  nr : ∀ x, P.R.nr x = x
  lpOK : LpOK P.lp
  lpComplete : LpComplete P.lp
  A : ∀ i j, Ordinary (P.A i j)
  b : ∀ i, Ordinary (P.b i)
  V : ∀ j, Ordinary (P.V j)
  big : -10 ^ 15 ≤ (P.V P.nu).a ∧ (P.V P.nu).b ≤ 10 ^ 15

theorem mkIv_mem (l r t : K) : t ∈ mkIv l r ↔ l ≤ t ∧ t ≤ r := by
  unfold mkIv
  split_ifs <;> exact Iff.rfl

/-- The two halves cover the box. -/
theorem pssSplit_covers (R : Rnd K) {m : ℕ} (Q : Fin m → Iv K) (k : Fin m) (y : Fin m → K) (hy : ∀ j, y j ∈ Q j) :
    (∀ j, y j ∈ (pssSplit R Q k).1 j) ∨ ∀ j, y j ∈ (pssSplit R Q k).2 j := by
  unfold pssSplit
  dsimp only
  set c := if (Q k).a ≠ 0 ∧ -2 < R.nr ((Q k).b / (Q k).a) ∧ R.nr ((Q k).b / (Q k).a) < R.nr (-1 / 2) then (0 : K)
    else (Q k).mid R
  have h := hy k
  rw [Iv.mem_def] at h
  rcases le_total (y k) c with hc | hc
  · left
    intro j
    by_cases hj : j = k
    · subst hj
      rw [Function.update_self, mkIv_mem]
      exact ⟨h.1, hc⟩
    · rw [Function.update_of_ne hj]
      exact hy j
  · right
    intro j
    by_cases hj : j = k
    · subst hj
      rw [Function.update_self, mkIv_mem]
      exact ⟨hc, h.2⟩
    · rw [Function.update_of_ne hj]
      exact hy j

theorem pssRes_mem {R : Rnd K} {n m : ℕ} (hm : 0 < m) (A : Fin n → Fin (m + 1) → Iv K) (b : Fin n → Iv K)
    (nu : Fin (m + 1)) (Q : Fin m → Iv K) (hA : ∀ i j, Ordinary (A i j)) (hb : ∀ i, Ordinary (b i))
    (hQ : ∀ j, Ordinary (Q j)) (i : Fin n) :
    Ordinary (pssRes R A b nu Q i) ∧ ∀ x, United A b x → (∀ j, x (nu.succAbove j) ∈ Q j) →
      Quot (pssRes R A b nu Q i) (A i nu) (x nu) := by
  have key : ∀ (a' : Fin m → K) (y : Fin m → K), (∀ j, a' j ∈ A i (nu.succAbove j)) → (∀ j, y j ∈ Q j) →
      ∃ Z, dotII R (List.ofFn fun j => A i (nu.succAbove j)) (List.ofFn Q) = some Z ∧ Ordinary Z ∧
        ∑ j, a' j * y j ∈ Z := by
    intro a' y ha hy
    exact C26_matmul_encloses R (fun _ : Fin 1 => fun j => A i (nu.succAbove j)) (fun j (_ : Fin 1) => Q j) hm
      (fun _ j => hA i _) (fun j _ => hQ j) (fun _ => a') (fun j _ => y j) (fun _ => ha) (fun j _ => hy j) 0 0
  constructor
  · obtain ⟨Z, h1, h2, -⟩ := key (fun j => (A i (nu.succAbove j)).a) (fun j => (Q j).a)
      (fun j => ⟨le_rfl, (hA i _).2⟩) (fun j => ⟨le_rfl, (hQ j).2⟩)
    unfold pssRes
    rw [h1]
    exact (C01_add_sub_ordinary R (b i) Z (hb i) h2).2
  · rintro x ⟨A', hA', b', hb', he⟩ hxQ
    obtain ⟨Z, h1, h2, h3⟩ := key (fun j => A' i (nu.succAbove j)) (fun j => x (nu.succAbove j))
      (fun j => hA' i _) hxQ
    refine ⟨b' i - ∑ j, A' i (nu.succAbove j) * x (nu.succAbove j), ?_, A' i nu, hA' i nu, ?_⟩
    · unfold pssRes
      rw [h1]
      exact C01_sub_encloses R (b i) Z _ ⟨b' i, hb' i, _, h3, rfl⟩
    · have := he i
      unfold apply at this
      rw [Fin.sum_univ_succAbove _ nu] at this
      linarith

/-- One half: the list stays sorted and below `omega`, keeps its elements, and accounts for the solutions of the
half. -/
theorem pssHalf_spec {n m : ℕ} (hm : 0 < m) (P : PssArg K n m) (hP : P.OK) (omega : K) (L L' : List (PssEl K m))
    (Q : Fin m → Iv K) (eta : Option K) (hsort : SortedQ L) (hle : ∀ e ∈ L, e.q ≤ omega)
    (hord : ∀ e ∈ L, ∀ j, Ordinary (e.Q j)) (hQp : ∀ j, Ordinary (Q j))
    (h : pssHalf P omega L Q = .ok (L', eta)) :
    SortedQ L' ∧ (∀ e ∈ L', e.q ≤ omega) ∧ (∀ e ∈ L', ∀ j, Ordinary (e.Q j)) ∧ (∀ e ∈ L, e ∈ L') ∧
    ∀ x, United P.A P.b x → x P.nu ∈ P.V P.nu → (∀ j, x (P.nu.succAbove j) ∈ Q j) → Covered P omega L' x := by
  have ins : ∀ (q : K) (ar : Bool), q < omega → (∀ x, United P.A P.b x → x P.nu ∈ P.V P.nu →
      (∀ j, x (P.nu.succAbove j) ∈ Q j) → q ≤ x P.nu) →
      SortedQ (pssInsert ⟨Q, q, ar⟩ L) ∧ (∀ e ∈ pssInsert ⟨Q, q, ar⟩ L, e.q ≤ omega) ∧
      (∀ e ∈ pssInsert ⟨Q, q, ar⟩ L, ∀ j, Ordinary (e.Q j)) ∧
      (∀ e ∈ L, e ∈ pssInsert ⟨Q, q, ar⟩ L) ∧
      ∀ x, United P.A P.b x → x P.nu ∈ P.V P.nu → (∀ j, x (P.nu.succAbove j) ∈ Q j) →
        Covered P omega (pssInsert ⟨Q, q, ar⟩ L) x := by
    intro q ar hq hlow
    refine ⟨sortedQ_insert _ _ hsort, fun e he => ?_, fun e he => ?_,
      fun e he => (mem_pssInsert _ _ _).2 (Or.inr he), fun x hx hxV hxQ =>
        Or.inl ⟨_, (mem_pssInsert _ _ _).2 (Or.inl rfl), hxQ, hlow x hx hxV hxQ⟩⟩
    · rcases (mem_pssInsert _ _ _).1 he with rfl | he
      · exact hq.le
      · exact hle e he
    · rcases (mem_pssInsert _ _ _).1 he with rfl | he
      · exact hQp
      · exact hord e he
  have keep : (∀ x, United P.A P.b x → x P.nu ∈ P.V P.nu → (∀ j, x (P.nu.succAbove j) ∈ Q j) → omega ≤ x P.nu) →
      SortedQ L ∧ (∀ e ∈ L, e.q ≤ omega) ∧ (∀ e ∈ L, ∀ j, Ordinary (e.Q j)) ∧ (∀ e ∈ L, e ∈ L) ∧
      ∀ x, United P.A P.b x → x P.nu ∈ P.V P.nu → (∀ j, x (P.nu.succAbove j) ∈ Q j) → Covered P omega L x :=
    fun hlow => ⟨hsort, hle, hord, fun _ he => he, fun x hx hxV hxQ => Or.inr (hlow x hx hxV hxQ)⟩
  unfold pssHalf at h
  split_ifs at h with hz
  · -- a component contains zero
    have low : ∀ o, omegaFn P.R (P.V P.nu) (pssRes P.R P.A P.b P.nu Q) (fun i => P.A i P.nu) = .ok o →
        ∀ x, United P.A P.b x → x P.nu ∈ P.V P.nu → (∀ j, x (P.nu.succAbove j) ∈ Q j) →
          ∃ q, o = some q ∧ q ≤ x P.nu := by
      intro o ho x hx hxV hxQ
      exact omegaFn_le hP.nr _ _ _ (fun i => (pssRes_mem hm P.A P.b P.nu Q hP.A hP.b hQp i).1)
        (fun i => hP.A i P.nu) (x P.nu) hxV
        (fun i => (pssRes_mem hm P.A P.b P.nu Q hP.A hP.b hQp i).2 x hx hxQ) o ho
    split at h
    · cases h
    · next ho =>
      injection h with h
      obtain ⟨rfl, rfl⟩ := Prod.mk.inj h
      refine keep fun x hx hxV hxQ => ?_
      obtain ⟨q, hq, -⟩ := low _ ho x hx hxV hxQ
      cases hq
    · next q ho =>
      split_ifs at h with hq
      · split at h
        · cases h
        · injection h with h
          obtain ⟨rfl, rfl⟩ := Prod.mk.inj h
          refine ins q true hq fun x hx hxV hxQ => ?_
          obtain ⟨q', hq', hle'⟩ := low _ ho x hx hxV hxQ
          injection hq' with hq'
          exact hq' ▸ hle'
      · injection h with h
        obtain ⟨rfl, rfl⟩ := Prod.mk.inj h
        refine keep fun x hx hxV hxQ => ?_
        obtain ⟨q', hq', hle'⟩ := low _ ho x hx hxV hxQ
        injection hq' with hq'
        exact (not_lt.1 hq).trans (hq' ▸ hle')
  · have h0 : ∀ j, ¬ (0 : K) ∈ Q j := by
      intro j hj
      exact hz (List.any_eq_true.2 ⟨j, List.mem_finRange j, containsNum_iff.2 hj⟩)
    have low : ∀ x, United P.A P.b x → x P.nu ∈ P.V P.nu → (∀ j, x (P.nu.succAbove j) ∈ Q j) →
        exactOmega P.R P.lp P.A P.b P.nu (P.V P.nu) Q ≤ x P.nu := fun x hx hxV hxQ =>
      exactOmega_le hP.nr P.lp hP.lpOK hP.lpComplete P.A P.b P.nu _ hP.big Q x hx hxV hxQ h0
    dsimp only at h
    split_ifs at h with hq
    · injection h with h
      obtain ⟨rfl, rfl⟩ := Prod.mk.inj h
      exact ins _ false hq low
    · injection h with h
      obtain ⟨rfl, rfl⟩ := Prod.mk.inj h
      exact keep fun x hx hxV hxQ => (not_lt.1 hq).trans (low x hx hxV hxQ)

/-- The halves of an ordinary box are ordinary. -/
theorem pssSplit_ordinary {R : Rnd K} (hnr : ∀ x, R.nr x = x) {m : ℕ} (Q : Fin m → Iv K) (k : Fin m)
    (hQ : ∀ j, Ordinary (Q j)) :
    (∀ j, Ordinary ((pssSplit R Q k).1 j)) ∧ ∀ j, Ordinary ((pssSplit R Q k).2 j) := by
  unfold pssSplit
  dsimp only
  set c := if (Q k).a ≠ 0 ∧ -2 < R.nr ((Q k).b / (Q k).a) ∧ R.nr ((Q k).b / (Q k).a) < R.nr (-1 / 2) then (0 : K)
    else (Q k).mid R with hc
  have hab := (hQ k).2
  have h : (Q k).a ≤ c ∧ c ≤ (Q k).b := by
    rw [hc]
    split_ifs with h
    · simp only [hnr] at h
      obtain ⟨h1, -, h3⟩ := h
      rcases lt_or_gt_of_ne h1 with ha | ha
      · refine ⟨ha.le, ?_⟩
        by_contra hcon
        have := div_nonneg_of_nonpos (not_le.1 hcon).le ha.le
        linarith
      · exfalso
        have := div_nonneg (ha.le.trans hab) ha.le
        linarith
    · unfold Iv.mid
      simp only [hnr]
      constructor <;> linarith
  have mk : ∀ l r : K, l ≤ r → Ordinary (mkIv l r) := by
    intro l r hlr
    unfold mkIv
    rw [if_pos hlr]
    exact ⟨rfl, hlr⟩
  constructor <;> intro j <;> by_cases hj : j = k
  · subst hj; rw [Function.update_self]; exact mk _ _ h.1
  · rw [Function.update_of_ne hj]; exact hQ j
  · subst hj; rw [Function.update_self]; exact mk _ _ h.2
  · rw [Function.update_of_ne hj]; exact hQ j

theorem pssHead_le {n m : ℕ} (P : PssArg K n m) (omega : K) (L : List (PssEl K m)) (hsort : SortedQ L)
    (hle : ∀ e ∈ L, e.q ≤ omega) (r : K) (h : pssHead L = .ok r) (x : Fin (m + 1) → K) (hx : Covered P omega L x) :
    r ≤ x P.nu := by
  cases L with
  | nil => cases h
  | cons a t =>
      injection h with h
      rcases hx with ⟨e, he, -, hq⟩ | hx
      · rcases List.mem_cons.1 he with rfl | he
        · exact h ▸ hq
        · exact h ▸ ((List.pairwise_cons.1 hsort).1 e he).trans hq
      · exact h ▸ (hle a (by simp)).trans hx

theorem pssPrune_spec {n m : ℕ} (P : PssArg K n m) (omega : K) (L : List (PssEl K m)) (eta : Option K)
    (hsort : SortedQ L) (hle : ∀ e ∈ L, e.q ≤ omega) :
    SortedQ (pssPrune omega L eta).2 ∧ (∀ e ∈ (pssPrune omega L eta).2, e.q ≤ (pssPrune omega L eta).1) ∧
    (∀ e ∈ (pssPrune omega L eta).2, e ∈ L) ∧
    ∀ x, Covered P omega L x → Covered P (pssPrune omega L eta).1 (pssPrune omega L eta).2 x := by
  cases eta with
  | none => exact ⟨hsort, hle, fun _ h => h, fun _ h => h⟩
  | some e =>
      simp only [pssPrune]
      split_ifs with h
      · refine ⟨hsort.filter _, fun f hf => ?_, fun f hf => (List.mem_filter.1 hf).1, fun x hx => ?_⟩
        · simpa using (List.mem_filter.1 hf).2
        · rcases hx with ⟨f, hf, hQ, hq⟩ | hx
          · by_cases hfe : f.q ≤ e
            · exact Or.inl ⟨f, List.mem_filter.2 ⟨hf, by simpa using hfe⟩, hQ, hq⟩
            · exact Or.inr ((not_le.1 hfe).le.trans hq)
          · exact Or.inr (h.le.trans hx)
      · exact ⟨hsort, hle, fun _ h => h, fun _ h => h⟩

/-- The loop keeps the bound, for every number of passes. -/
theorem pssLoop_le {n m : ℕ} (hm : 0 < m) (P : PssArg K n m) (hP : P.OK) (fuel : ℕ) :
    ∀ (omega : K) (L : List (PssEl K m)) (item : ℕ) (Q : Fin m → Iv K) (e : PssEl K m), L[item]? = some e → e.Q = Q →
      SortedQ L → (∀ e ∈ L, e.q ≤ omega) → (∀ e ∈ L, ∀ j, Ordinary (e.Q j)) → ∀ r, pssLoop P fuel omega L item Q = .ok r →
      ∀ x, United P.A P.b x → x P.nu ∈ P.V P.nu → Covered P omega L x → r ≤ x P.nu := by
  induction fuel with
  | zero =>
      intro omega L item Q e _ _ hsort hle _ r h x _ _ hx
      exact pssHead_le P omega L hsort hle r h x hx
  | succ fuel ih =>
      intro omega L item Q e hitem heQ hsort hle hord r h x hxU hxV hx
      unfold pssLoop at h
      split at h
      · cases h
      · next k hk =>
        split_ifs at h with htol
        · dsimp only at h
          have hsub : ∀ f ∈ L.eraseIdx item, f ∈ L := fun f hf => (L.eraseIdx_sublist item).subset hf
          have hQo : ∀ j, Ordinary (Q j) := by
            rw [← heQ]
            exact hord e (List.mem_of_getElem? hitem)
          obtain ⟨ho1, ho2⟩ := pssSplit_ordinary hP.nr Q k hQo
          split at h
          · cases h
          · next L1 eta1 h1 =>
            obtain ⟨s1, l1, o1, k1, c1⟩ := pssHalf_spec hm P hP omega _ L1 _ eta1 (hsort.sublist (L.eraseIdx_sublist item))
              (fun f hf => hle f (hsub f hf)) (fun f hf => hord f (hsub f hf)) ho1 h1
            split at h
            · cases h
            · next L2 eta2 h2 =>
              obtain ⟨s2, l2, o2, k2, c2⟩ := pssHalf_spec hm P hP omega L1 L2 _ eta2 s1 l1 o1 ho2 h2
              have hc : Covered P omega L2 x := by
                rcases hx with ⟨f, hf, hfQ, hfq⟩ | hx
                · by_cases hfe : f ∈ L.eraseIdx item
                  · exact Or.inl ⟨f, k2 f (k1 f hfe), hfQ, hfq⟩
                  · have hfeq : f = e := by
                      obtain ⟨i, hi⟩ := List.mem_iff_getElem?.1 hf
                      by_cases hii : i = item
                      · rw [hii, hitem] at hi
                        injection hi with hi
                        exact hi.symm
                      · exact absurd (List.mem_eraseIdx_iff_getElem?.2 ⟨i, hii, hi⟩) hfe
                    rw [hfeq, heQ] at hfQ
                    rcases pssSplit_covers P.R Q k (fun j => x (P.nu.succAbove j)) hfQ with hy | hy
                    · rcases c1 x hxU hxV hy with ⟨g, hg, hg2⟩ | h3
                      · exact Or.inl ⟨g, k2 g hg, hg2⟩
                      · exact Or.inr h3
                    · exact c2 x hxU hxV hy
                · exact Or.inr hx
              obtain ⟨s3, l3, u3, c3⟩ := pssPrune_spec P omega L2 (etaMin eta1 eta2) s2 l2
              split at h
              · exact pssHead_le P _ _ s3 l3 r h x (c3 x hc)
              · next item' hi =>
                split at h
                · exact pssHead_le P _ _ s3 l3 r h x (c3 x hc)
                · next l hl =>
                  exact ih _ _ item' l.Q l hl rfl s3 l3 (fun f hf => o2 f (u3 f hf)) r h x hxU hxV (c3 x hc)
        · exact pssHead_le P omega L hsort hle r h x hx

/-- C52, one component: the value returned by `algo` is not above the component of any solution in the start box,
whatever the number of passes and the tolerance. -/
theorem C52_algo_le {n m : ℕ} (P : PssArg K n m) (hP : P.OK) (maxiter : ℤ) (r : K)
    (h : pssAlgo P maxiter = .ok r) (x : Fin (m + 1) → K) (hx : United P.A P.b x) (hV : InVec x P.V) : r ≤ x P.nu := by
  unfold pssAlgo at h
  split_ifs at h with hm
  dsimp only at h
  refine pssLoop_le (Nat.pos_of_ne_zero hm) P hP _ _ _ 0 _ _ rfl rfl (List.pairwise_singleton _ _) ?_ ?_ r h x hx
    (hV P.nu) (Or.inl ⟨_, List.mem_singleton.2 rfl, fun j => hV _, (hV P.nu).1⟩)
  · intro e he
    rw [List.mem_singleton.1 he]
    exact (hP.V P.nu).2
  · intro e he j
    rw [List.mem_singleton.1 he]
    exact hP.V _

theorem pssAll_le {n m : ℕ} (P : PssArg K n m) (hP : ∀ nu, ({ P with nu := nu } : PssArg K n m).OK) (maxiter : ℤ)
    (x : Fin (m + 1) → K) (hx : United P.A P.b x) (hV : InVec x P.V) :
    ∀ (nus : List (Fin (m + 1))) (rs : List K), pssAll P maxiter nus = .ok rs →
      List.Forall₂ (fun nu r => r ≤ x nu) nus rs := by
  intro nus
  induction nus with
  | nil =>
      intro rs h
      cases h
      exact List.Forall₂.nil
  | cons nu nus ih =>
      intro rs h
      unfold pssAll at h
      split at h
      · cases h
      · next q hq =>
        cases h1 : pssAll P maxiter nus with
        | error e => rw [h1] at h; cases h
        | ok t =>
            rw [h1] at h
            cases h
            exact List.Forall₂.cons (C52_algo_le _ (hP nu) maxiter q hq x hx hV) (ih t h1)

theorem united_neg {n m : ℕ} (A : Fin n → Fin m → Iv K) (b c : Fin n → Iv K) (x : Fin m → K) (hx : United A b x)
    (hc : ∀ i t, t ∈ b i → -t ∈ c i) : United A c (fun j => -x j) := by
  obtain ⟨A', hA', b', hb', he⟩ := hx
  refine ⟨A', hA', fun i => -b' i, fun i => hc i _ (hb' i), fun i => ?_⟩
  have h := he i
  unfold apply at h ⊢
  dsimp only
  rw [← h]
  simp

/-- What `StartBar` has to provide for the system it is given: an ordinary box within `±1e15` around the united
solution set. -/
def StartOK {n m : ℕ} (V : Fin m → Iv K) (A : Fin n → Fin m → Iv K) (b : Fin n → Iv K) : Prop :=
  (∀ j, Ordinary (V j)) ∧ (∀ j, -10 ^ 15 ≤ (V j).a ∧ (V j).b ≤ 10 ^ 15) ∧ ∀ x, United A b x → InVec x V

/-- C52 as stated: whatever the start estimate, the iteration limit and the tolerance, the bounds returned enclose the
components of every solution. -/
def C52_statement (K : Type*) [Field K] [LinearOrder K] [IsStrictOrderedRing K] : Prop :=
  ∀ (R : Rnd K) (n m : ℕ) (lp : LpSolver K (PssRow n m) (Fin (m + 1))), LpOK lp → LpComplete lp →
  ∀ (A : Fin n → Fin (m + 1) → Iv K) (b : Fin n → Iv K), (∀ i j, Ordinary (A i j)) → (∀ i, Ordinary (b i)) →
  ∀ (x0 : Fin (m + 1) → Iv K), StartOK x0 A b →
  ∀ (tol : K) (maxiter : ℤ) (nu : Option (Fin (m + 1))) (X : List (Iv K)),
    pss R lp (startGiven x0) tol maxiter A b nu = .ok X →
  ∀ x, United A b x → List.Forall₂ (fun k I => x k ∈ I) (nu.elim (List.finRange (m + 1)) fun k => [k]) X

/-- C52 (partial): the bounds returned enclose the components of every solution, for every number of passes and every
tolerance, when the start estimate is right for both right-hand sides the method uses and point quotients are exact.
Missing for the full statement: a given `x0`, which is used unchanged for the negated system (`C52_x0_false`), rounded
point quotients (`C53_rounding_false`, `C52_rounding_false`), and the start estimate of `Gauss` for three and more unknowns
(`C37_gauss_false`). -/
theorem C52_pss_partial {R : Rnd K} (hnr : ∀ x, R.nr x = x) {n m : ℕ} (lp : LpSolver K (PssRow n m) (Fin (m + 1)))
    (hlp : LpOK lp) (hc : LpComplete lp) (start : (Fin n → Iv K) → Fin (m + 1) → Iv K) (tol : K) (maxiter : ℤ)
    (A : Fin n → Fin (m + 1) → Iv K) (b : Fin n → Iv K) (hA : ∀ i j, Ordinary (A i j)) (hb : ∀ i, Ordinary (b i))
    (hs1 : StartOK (start fun i => (b i).rmul R 1) A fun i => (b i).rmul R 1)
    (hs2 : StartOK (start fun i => ((b i).rmul R 1).rmul R (-1)) A fun i => ((b i).rmul R 1).rmul R (-1)) (nu : Option (Fin (m + 1))) (X : List (Iv K))
    (h : pss R lp start tol maxiter A b nu = .ok X) (x : Fin (m + 1) → K) (hx : United A b x) :
    List.Forall₂ (fun k I => x k ∈ I) (nu.elim (List.finRange (m + 1)) fun k => [k]) X := by
  have hb1 : ∀ i, Ordinary ((b i).rmul R 1) := fun i => (C05_rmul_encloses R 1 (b i) (hb i)).2.2
  have hb2 : ∀ i, Ordinary (((b i).rmul R 1).rmul R (-1)) := fun i => (C05_rmul_encloses R (-1) _ (hb1 i)).2.2
  have hm1 : ∀ i t, t ∈ b i → t ∈ (b i).rmul R 1 := fun i t ht =>
    (C05_rmul_encloses R 1 (b i) (hb i)).1 _ ⟨t, ht, by rw [one_mul]⟩
  have hm2 : ∀ i t, t ∈ b i → -t ∈ ((b i).rmul R 1).rmul R (-1) := fun i t ht =>
    (C05_rmul_encloses R (-1) _ (hb1 i)).1 _ ⟨t, hm1 i t ht, by ring⟩
  have hx1 : United A (fun i => (b i).rmul R 1) x := by
    obtain ⟨A', hA', b', hb', he⟩ := hx
    exact ⟨A', hA', b', fun i => hm1 i _ (hb' i), he⟩
  have hx2 := united_neg A b _ x hx hm2
  obtain ⟨o1, g1, e1⟩ := hs1
  obtain ⟨o2, g2, e2⟩ := hs2
  have hnus : pssNus nu = nu.elim (List.finRange (m + 1)) fun k => [k] := by
    cases nu <;> rfl
  unfold pss at h
  dsimp only at h
  split at h
  · cases h
  · next inf hinf =>
    split at h
    · cases h
    · next sup hsup =>
      injection h with h
      rw [← h]
      have hi := pssAll_le _ (fun k => ⟨hnr, hlp, hc, hA, hb1, o1, g1 k⟩) maxiter x hx1 (e1 x hx1) _ inf hinf
      have hs := pssAll_le _ (fun k => ⟨hnr, hlp, hc, hA, hb2, o2, g2 k⟩) maxiter _ hx2 (e2 _ hx2) _ sup hsup
      rw [hnus] at hi hs
      clear hinf hsup h hnus
      revert sup
      generalize (nu.elim (List.finRange (m + 1)) fun k => [k]) = nus at hi ⊢
      induction hi with
      | nil =>
          intro sup hs
          cases hs
          exact List.Forall₂.nil
      | cons h1 h2 ih =>
          intro sup hs
          cases hs with
          | cons h3 h4 => exact List.Forall₂.cons ((mkIv_mem _ _ _).2 ⟨h1, by linarith⟩) (ih _ h4)

/-- C52 for two unknowns without `x0` (the start is `Gauss`, line 144): whenever `Gauss` succeeds with bounds within
`±1e15`, all bounds `PSS` returns are valid, however early it is stopped. -/
theorem C52_two_unknowns {R : Rnd K} (hnr : ∀ x, R.nr x = x) (lp : LpSolver K (PssRow 2 1) (Fin 2))
    (hlp : LpOK lp) (hc : LpComplete lp) (tol : K) (maxiter : ℤ)
    (A : Fin 2 → Fin 2 → Iv K) (b : Fin 2 → Iv K) (hA : ∀ i j, Ordinary (A i j)) (hb : ∀ i, Ordinary (b i))
    (V1 V2 : Fin 2 → Iv K) (h1 : gauss R A (fun i => (b i).rmul R 1) = .ok V1)
    (h2 : gauss R A (fun i => ((b i).rmul R 1).rmul R (-1)) = .ok V2)
    (g1 : ∀ j, -10 ^ 15 ≤ (V1 j).a ∧ (V1 j).b ≤ 10 ^ 15) (g2 : ∀ j, -10 ^ 15 ≤ (V2 j).a ∧ (V2 j).b ≤ 10 ^ 15)
    (X : List (Iv K)) (h : pss R lp (startGauss R A) tol maxiter A b none = .ok X) (x : Fin 2 → K)
    (hx : United A b x) : ∃ X0 X1, X = [X0, X1] ∧ x 0 ∈ X0 ∧ x 1 ∈ X1 := by
  have hb1 : ∀ i, Ordinary ((b i).rmul R 1) := fun i => (C05_rmul_encloses R 1 (b i) (hb i)).2.2
  have hb2 : ∀ i, Ordinary (((b i).rmul R 1).rmul R (-1)) := fun i => (C05_rmul_encloses R (-1) _ (hb1 i)).2.2
  have e1 : startGauss R A (fun i => (b i).rmul R 1) = V1 := by unfold startGauss; rw [h1]
  have e2 : startGauss R A (fun i => ((b i).rmul R 1).rmul R (-1)) = V2 := by unfold startGauss; rw [h2]
  have := C52_pss_partial (m := 1) hnr lp hlp hc (startGauss R A) tol maxiter A b hA hb
    (e1.symm ▸ ⟨C37_gauss_ordinary R A _ V1 hA hb1 h1, g1, fun y hy =>
      C37_gauss_partial R le_rfl A _ V1 hA hb1 h1 y hy⟩)
    (e2.symm ▸ ⟨C37_gauss_ordinary R A _ V2 hA hb2 h2, g2, fun y hy =>
      C37_gauss_partial R le_rfl A _ V2 hA hb2 h2 y hy⟩) none X h x hx
  have hl : (none : Option (Fin 2)).elim (List.finRange 2) (fun k => [k]) = [0, 1] := by decide
  rw [hl] at this
  cases this with
  | cons h3 h4 =>
      cases h4 with
      | cons h5 h6 =>
          cases h6
          exact ⟨_, _, rfl, h3, h5⟩

/-- C52 (the start without `x0` for a square system): when `Gauss` fails the start is the box `[-1e14, 1e14]`, which contains every
solution with entries of that size. -/
theorem C52_start_fails (R : Rnd K) {n : ℕ} (A : Fin n → Fin n → Iv K) (b : Fin n → Iv K) (e : Err) (h : gauss R A b = .error e)
    (x : Fin n → K) : InVec x (startGauss R A b) ↔ ∀ i, |x i| ≤ 10 ^ 14 := by
  unfold startGauss
  rw [h]
  refine forall_congr' fun i => ?_
  rw [Iv.mem_def, abs_le]
  rfl

/-- A singular matrix: `Gauss` raises. -/
example : (match gauss (Rnd.exact : Rnd ℚ) (fun _ _ : Fin 2 => ⟨.classical, -1, 1⟩) (fun _ => ⟨.classical, 1, 1⟩) with
    | .error _ => true
    | .ok _ => false) = true := by decide +kernel

/-! ## Examples and counterexamples -/

/-- The endpoints of the result. -/
def pssEnds (r : Except Err (List (Iv ℚ))) : Option (List (ℚ × ℚ)) :=
  match r with
  | .ok X => some (X.map fun I => (I.a, I.b))
  | .error _ => none

/-- The linear program solver of the examples, an optimal point whenever there is one. -/
noncomputable def pssLpEx (n m : ℕ) : LpSolver ℚ (PssRow n m) (Fin (m + 1)) := lpChoice _ _ _

example : pssEnds (pss (Rnd.exact : Rnd ℚ) (pssLpEx 2 1) (startGauss Rnd.exact barthA) (1 / 10 ^ 12) 0 barthA barthb
    none) = some [(-5, 5), (-4, 4)] := by
  decide +kernel

/-- A system `[[1, 0], [[-1/10, 1/10], 1]] x = ([-1/2, 5], 0)`. -/
def pssX0A : Fin 2 → Fin 2 → Iv ℚ :=
  ![![⟨.classical, 1, 1⟩, ⟨.classical, 0, 0⟩], ![⟨.classical, -1 / 10, 1 / 10⟩, ⟨.classical, 1, 1⟩]]
/-- Its right-hand side. -/
def pssX0b : Fin 2 → Iv ℚ := ![⟨.classical, -1 / 2, 5⟩, ⟨.classical, 0, 0⟩]
/-- A box around its united solution set. -/
def pssX0 : Fin 2 → Iv ℚ := ![⟨.classical, -1, 10⟩, ⟨.classical, -1, 1⟩]

theorem pssX0_start : StartOK pssX0 pssX0A pssX0b :=
  ⟨by intro i; fin_cases i <;> norm_num [pssX0, Ordinary], by
    intro i; fin_cases i <;> norm_num [pssX0], by
    rintro x ⟨A', hA', b', hb', he⟩
    have e0 := he 0
    have e1 := he 1
    simp only [apply, Fin.sum_univ_two] at e0 e1
    have a00 := hA' 0 0
    have a01 := hA' 0 1
    have a10 := hA' 1 0
    have a11 := hA' 1 1
    have b0 := hb' 0
    have b1 := hb' 1
    norm_num [pssX0A, pssX0b, Iv.mem_def] at a00 a01 a10 a11 b0 b1
    have f00 : A' 0 0 = 1 := le_antisymm a00.2 a00.1
    have f01 : A' 0 1 = 0 := le_antisymm a01.2 a01.1
    have f11 : A' 1 1 = 1 := le_antisymm a11.2 a11.1
    have g1 : b' 1 = 0 := le_antisymm b1.2 b1.1
    rw [f00, f01] at e0
    rw [f11, g1] at e1
    have x0l : -1 / 2 ≤ x 0 := by linarith [b0.1]
    have x0u : x 0 ≤ 5 := by linarith [b0.2]
    have x1 : |A' 1 0 * x 0| ≤ 1 / 10 * 5 := by
      rw [abs_mul]
      exact mul_le_mul (abs_le.2 ⟨by linarith [a10.1], a10.2⟩) (abs_le.2 ⟨by linarith, x0u⟩) (abs_nonneg _)
        (by norm_num)
    rw [abs_le] at x1
    intro i
    fin_cases i
    · norm_num [pssX0, Iv.mem_def]; constructor <;> linarith
    · norm_num [pssX0, Iv.mem_def]; constructor <;> linarith [x1.1, x1.2]⟩

/-- C52 is false: with a correct `x0` the upper bounds are wrong, because `x0` (and not `-x0`) is used for the negated
system (line 134).  For `[[1, 0], [[-1/10, 1/10], 1]] x = ([-1/2, 5], 0)` and `x0 = ([-1, 10], [-1, 1])` the first
component of the solutions goes up to 5 and `PSS` returns `[-1/2, 1]`. -/
theorem C52_x0_false : ¬ C52_statement ℚ := by
  intro h
  have h0 : pssEnds (pss (Rnd.exact : Rnd ℚ) (pssLpEx 2 1) (startGiven pssX0) (1 / 10 ^ 12) 0 pssX0A pssX0b (some 0)) =
      some [(-1 / 2, 1)] := by
    decide +kernel
  cases hX : pss (Rnd.exact : Rnd ℚ) (pssLpEx 2 1) (startGiven pssX0) (1 / 10 ^ 12) 0 pssX0A pssX0b (some 0) with
  | error e => rw [hX] at h0; cases h0
  | ok X =>
      rw [hX] at h0
      have hu : United pssX0A pssX0b ![5, 0] := by
        refine ⟨![![1, 0], ![0, 1]], ?_, ![5, 0], ?_, ?_⟩
        · intro i j; fin_cases i <;> fin_cases j <;> norm_num [pssX0A, Iv.mem_def]
        · intro i; fin_cases i <;> norm_num [pssX0b, Iv.mem_def]
        · intro i; fin_cases i <;> norm_num [apply, Fin.sum_univ_two]
      have := h Rnd.exact 2 1 (pssLpEx 2 1) (lpChoice_ok _ _) (lpChoice_complete _ _) pssX0A pssX0b
        (by intro i j; fin_cases i <;> fin_cases j <;> norm_num [pssX0A, Ordinary])
        (by intro i; fin_cases i <;> norm_num [pssX0b, Ordinary]) pssX0 pssX0_start
        (1 / 10 ^ 12) 0 (some 0) X hX ![5, 0] hu
      cases this with
      | cons h1 h2 =>
          cases h2
          simp only [pssEnds, List.map_cons, List.map_nil, Option.some.injEq, List.cons.injEq, Prod.mk.injEq,
            and_true] at h0
          have := h1.2
          rw [h0.2] at this
          norm_num at this

/-! ## C74: returning -/

/-- C74 as stated: without `x0`, for a square system which `Gauss` solves, `PSS` returns bounds. -/
def C74_statement (K : Type*) [Field K] [LinearOrder K] [IsStrictOrderedRing K] : Prop :=
  ∀ (R : Rnd K) (m : ℕ) (lp : LpSolver K (PssRow (m + 1) m) (Fin (m + 1))), LpOK lp → LpComplete lp →
  ∀ (A : Fin (m + 1) → Fin (m + 1) → Iv K) (b : Fin (m + 1) → Iv K), (∀ i j, Ordinary (A i j)) →
  (∀ i, Ordinary (b i)) →
  (∃ V1 V2, gauss R A (fun i => (b i).rmul R 1) = .ok V1 ∧ gauss R A (fun i => ((b i).rmul R 1).rmul R (-1)) = .ok V2) →
  ∀ (tol : K) (maxiter : ℤ), ∃ X, pss R lp (startGauss R A) tol maxiter A b none = .ok X

/-- The identity matrix with `b = ([1, 1], [-1, 1])`. -/
def pssIdA : Fin 2 → Fin 2 → Iv ℚ := fun i j => if i = j then ⟨.classical, 1, 1⟩ else ⟨.classical, 0, 0⟩
/-- Its right-hand side. -/
def pssIdb : Fin 2 → Iv ℚ := ![⟨.classical, 1, 1⟩, ⟨.classical, -1, 1⟩]
/-- The error raised. -/
def pssErr (r : Except Err (List (Iv ℚ))) : Option Err :=
  match r with
  | .ok _ => none
  | .error e => some e

/-- Whether `Gauss` returns. -/
def gaussRuns {n : ℕ} (A : Fin n → Fin n → Iv ℚ) (b : Fin n → Iv ℚ) : Bool :=
  match gauss Rnd.exact A b with
  | .ok _ => true
  | .error _ => false

/-- C74 is false: for the identity matrix and `b = ([1, 1], [-1, 1])` the working list runs empty, because the bound
of every piece equals `omega`, and `L[0]` raises `IndexError`. -/
theorem C74_empty_list_false : ¬ C74_statement ℚ ∧
    pss (Rnd.exact : Rnd ℚ) (pssLpEx 2 1) (startGauss Rnd.exact pssIdA) (1 / 10 ^ 12) 2000 pssIdA pssIdb none =
      .error .indexError := by
  have h0 : pssErr (pss (Rnd.exact : Rnd ℚ) (pssLpEx 2 1) (startGauss Rnd.exact pssIdA) (1 / 10 ^ 12) 2000 pssIdA pssIdb
      none) = some .indexError := by
    decide +kernel
  have h1 : pss (Rnd.exact : Rnd ℚ) (pssLpEx 2 1) (startGauss Rnd.exact pssIdA) (1 / 10 ^ 12) 2000 pssIdA pssIdb none =
      .error .indexError := by
    unfold pssErr at h0
    split at h0
    · cases h0
    · next e he => injection h0 with h0; rw [he, h0]
  refine ⟨fun h => ?_, h1⟩
  obtain ⟨X, hX⟩ := h Rnd.exact 1 (pssLpEx 2 1) (lpChoice_ok _ _) (lpChoice_complete _ _) pssIdA pssIdb
    (by intro i j; fin_cases i <;> fin_cases j <;> norm_num [pssIdA, Ordinary])
    (by intro i; fin_cases i <;> norm_num [pssIdb, Ordinary])
    (by
      have g1 : gaussRuns pssIdA (fun i => (pssIdb i).rmul Rnd.exact 1) = true := by decide +kernel
      have g2 : gaussRuns pssIdA (fun i => ((pssIdb i).rmul Rnd.exact 1).rmul Rnd.exact (-1)) = true := by
        decide +kernel
      unfold gaussRuns at g1 g2
      split at g1
      · next V1 h1 =>
        split at g2
        · next V2 h2 => exact ⟨V1, V2, h1, h2⟩
        · cases g2
      · cases g1) (1 / 10 ^ 12) 2000
  rw [h1] at hX
  cases hX

theorem pssAll_stopped {n m : ℕ} (hm : 0 < m) (P : PssArg K n m) (maxiter : ℤ)
    (hs : maxiter < 0 ∨ ∀ j, (P.V j).wid P.R < P.tol) (nus : List (Fin (m + 1))) :
    pssAll P maxiter nus = .ok (nus.map fun k => (P.V k).a) := by
  have head : ∀ k, pssAlgo { P with nu := k } maxiter = .ok (P.V k).a := by
    intro k
    unfold pssAlgo
    rw [if_neg hm.ne']
    dsimp only
    rcases hs with hs | hs
    · rw [show (maxiter + 1).toNat = 0 by omega]
      rfl
    · cases hf : (maxiter + 1).toNat with
      | zero => rfl
      | succ f =>
          unfold pssLoop
          split
          · next hk =>
            exfalso
            have : List.finRange m ≠ [] := by
              rw [Ne, ← List.length_eq_zero_iff, List.length_finRange]
              exact hm.ne'
            cases hl : List.finRange m with
            | nil => exact this hl
            | cons a t => rw [hl] at hk; cases hk
          · rw [if_neg (not_le.2 (hs _))]
            rfl
  induction nus with
  | nil => rfl
  | cons k t ih =>
      unfold pssAll
      rw [head k, ih]
      rfl

/-- C74 (partial): with at least two unknowns, a negative iteration limit, or a tolerance above the widths of the start
boxes, `PSS` returns the start bounds.  Missing for the full statement: systems that need a pass, where it is false
(`C74_empty_list_false`). -/
theorem C74_no_pass_partial {n m : ℕ} (hm : 0 < m) (R : Rnd K) (lp : LpSolver K (PssRow n m) (Fin (m + 1)))
    (start : (Fin n → Iv K) → Fin (m + 1) → Iv K) (tol : K) (maxiter : ℤ) (A : Fin n → Fin (m + 1) → Iv K)
    (b : Fin n → Iv K) (hs : maxiter < 0 ∨ (∀ j, (start (fun i => (b i).rmul R 1) j).wid R < tol) ∧
      ∀ j, (start (fun i => ((b i).rmul R 1).rmul R (-1)) j).wid R < tol) :
    pss R lp start tol maxiter A b none = .ok ((List.finRange (m + 1)).map fun k =>
      mkIv (start (fun i => (b i).rmul R 1) k).a (-(start (fun i => ((b i).rmul R 1).rmul R (-1)) k).a)) := by
  unfold pss
  dsimp only
  rw [pssAll_stopped hm _ maxiter (hs.imp_right And.left) _, pssAll_stopped hm _ maxiter (hs.imp_right And.right) _]
  simp only [pssNus, Except.ok.injEq]
  generalize List.finRange (m + 1) = l
  induction l with
  | nil => rfl
  | cons a t ih => simp only [List.map_cons, List.zipWith_cons_cons, ih]

/-- C74: with one unknown `PSS` always raises `ValueError` (`np.amax` of an empty array), also for a regular
equation. -/
theorem C74_one_unknown (R : Rnd K) {n : ℕ} (lp : LpSolver K (PssRow n 0) (Fin 1))
    (start : (Fin n → Iv K) → Fin 1 → Iv K) (tol : K) (maxiter : ℤ) (A : Fin n → Fin 1 → Iv K) (b : Fin n → Iv K)
    (nu : Option (Fin 1)) : pss R lp start tol maxiter A b nu = .error .valueError := by
  have : ∀ P : PssArg K n 0, pssAll P maxiter (pssNus nu) = .error .valueError := by
    intro P
    cases nu <;> rfl
  unfold pss
  dsimp only
  rw [this]

end IntvalPy
