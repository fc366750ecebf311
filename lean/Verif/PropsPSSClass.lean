import Verif.ModelPSSClass
import Verif.PropsPSS
import Verif.PropsViews

/-!
# C158: `PSS` and the number types of the elements of the matrix
-/

set_option autoImplicit false
set_option linter.unusedSectionVars false

namespace IntvalPy
open Spec

variable {K : Type*} [Field K] [LinearOrder K] [IsStrictOrderedRing K]

/-- The division of Kahan with the case chosen for a row classified as "contains zero", whether it does or not: the
intervals returned contain every quotient, negative ones in the first, positive ones in the second. -/
theorem kdiv_any {R : Rnd K} (hnr : ∀ x, R.nr x = x) (a b : Iv K) (ha : a.a ≤ a.b) (hb : b.a ≤ b.b) (ps : List (XIv K))
    (h : kdiv R a b (numFuncC false b) = .ok ps) :
    (∀ t, Quot a b t → PieceHas t ps) ∧ (numFuncC false b ≠ 2 → ps.length = 1) := by
  by_cases h0 : (0 : K) ∈ b
  · have hcl : classicRow R b = false := by
      rw [Bool.eq_false_iff]
      intro hc
      rw [classicRow_iff hnr] at hc
      exact absurd hc (not_lt.2 (mul_nonpos_of_nonpos_of_nonneg h0.1 h0.2))
    have en : numFuncC false b = numFunc R b := by simp [numFuncC, numFunc, hcl]
    rw [en] at h ⊢
    cases kdiv_spec hnr a b ha hb h0 ps h with
    | one p hp => exact ⟨fun t ht => .one p ((hp t).2 ht), fun _ => rfl⟩
    | two p q hp hq' hn =>
        have hna : ¬ (0 : K) ∈ a := by
          intro hc
          unfold kdiv at h
          rw [if_pos (containsNum_iff.2 hc)] at h
          cases h
        refine ⟨fun t ht => .two p q ?_, fun hc => absurd hn hc⟩
        rcases lt_or_gt_of_ne (quot_ne_zero hna ht) with h' | h'
        · exact Or.inl ⟨h', (hp t).2 ⟨h', ht⟩⟩
        · exact Or.inr ⟨h', (hq' t).2 ⟨h', ht⟩⟩
  · have hs : 0 < b.a ∨ b.b < 0 := by
      rw [Iv.mem_def, not_and_or, not_le, not_le] at h0
      exact h0
    have hba : b.a ≠ 0 := by rcases hs with hs | hs <;> [exact hs.ne'; exact (hb.trans_lt hs).ne]
    have hbb : b.b ≠ 0 := by rcases hs with hs | hs <;> [exact (hs.trans_le hb).ne'; exact hs.ne]
    have en : numFuncC false b = 2 := by simp [numFuncC, hba, hbb]
    rw [en] at h ⊢
    refine ⟨fun t ht => ?_, fun hc => absurd rfl hc⟩
    have wide : ∀ b0 : Iv K, b0.a ≤ b.a → b.b ≤ b0.b → Quot a b0 t := by
      intro b0 h1 h2
      obtain ⟨a', ha', b', hb', e⟩ := ht
      exact ⟨a', ha', b', ⟨h1.trans hb'.1, hb'.2.trans h2⟩, e⟩
    unfold kdiv at h
    split_ifs at h with h1 h2 h3
    · injection h with h
      subst h
      exact .one _ (by simp [XIv.Mem])
    · simp only [kdivTable, rightRay, leftRay, fdiv, if_neg hba, if_neg hbb, twoRays] at h
      injection h with h
      subst h
      refine .two _ _ ?_
      rcases hs with hs | hs
      · have ht0 := (quot_sign ht).1 h2 hs.le
        refine Or.inl ⟨ht0, ?_⟩
        rw [XIv.mem_left, hnr]
        exact (quot_neg_neg (b := ⟨.classical, 0, b.b⟩) ha h2 le_rfl (hs.trans_le hb) t).1 ⟨ht0, wide _ hs.le le_rfl⟩
      · have ht0 := (quot_sign ht).2.1 h2 hs.le
        refine Or.inr ⟨ht0, ?_⟩
        rw [XIv.mem_right, hnr]
        exact (quot_neg_pos (b := ⟨.classical, b.a, 0⟩) ha h2 (hb.trans_lt hs) le_rfl t).1 ⟨ht0, wide _ le_rfl hs.le⟩
    · simp only [kdivTable, rightRay, leftRay, fdiv, if_neg hba, if_neg hbb, twoRays] at h
      injection h with h
      subst h
      refine .two _ _ ?_
      rcases hs with hs | hs
      · have ht0 := (quot_sign ht).2.2.1 h3 hs.le
        refine Or.inr ⟨ht0, ?_⟩
        rw [XIv.mem_right, hnr]
        exact (quot_pos_pos (b := ⟨.classical, 0, b.b⟩) ha h3 le_rfl (hs.trans_le hb) t).1 ⟨ht0, wide _ hs.le le_rfl⟩
      · have ht0 := (quot_sign ht).2.2.2 h3 hs.le
        refine Or.inl ⟨ht0, ?_⟩
        rw [XIv.mem_left, hnr]
        exact (quot_pos_neg (b := ⟨.classical, b.a, 0⟩) ha h3 (hb.trans_lt hs) le_rfl t).1 ⟨ht0, wide _ le_rfl hs.le⟩

/-- Whatever the classification of the rows, `Omega` returns a lower bound of every number `t` in `V[nu]` that is a quotient in every row; with any such number
the value is not `infinity`. -/
theorem omegaFnC_le {R : Rnd K} (hnr : ∀ x, R.nr x = x) {n : ℕ} (cl : Fin n → Bool) (Vnu : Iv K) (bAr Anu : Fin n → Iv K)
    (hb : ∀ i, Ordinary (bAr i)) (hA : ∀ i, Ordinary (Anu i)) (t : K) (ht : t ∈ Vnu) (hq : ∀ i, Quot (bAr i) (Anu i) t)
    (o : Option K) (h : omegaFnC R cl Vnu bAr Anu = .ok o) : ∃ q, o = some q ∧ q ≤ t := by
  unfold omegaFnC at h
  split at h
  · cases h
  · next pdiv hpd =>
    have hpieces : ∀ ps ∈ pdiv, PieceHas t ps := by
      intro ps hps
      obtain ⟨k, hk, he⟩ := mapM_ok_mem _ _ _ hpd ps hps
      have hcl : cl k = false := by simpa using (List.mem_filter.1 hk).2
      rw [hcl] at he
      exact (kdiv_any hnr (bAr k) (Anu k) (hb k).2 (hA k).2 ps he).1 t (hq k)
    have hlen : ((List.finRange n).any fun k => numFuncC (cl k) (Anu k) == 2) = false → ∀ ps ∈ pdiv, ps.length = 1 := by
      intro hf ps hps
      obtain ⟨k, hk, he⟩ := mapM_ok_mem _ _ _ hpd ps hps
      have hcl : cl k = false := by simpa using (List.mem_filter.1 hk).2
      have h2 := List.any_eq_false.1 hf k (List.mem_finRange k)
      rw [hcl] at he h2
      exact (kdiv_any hnr (bAr k) (Anu k) (hb k).2 (hA k).2 ps he).2 (by simpa using h2)
    have hdivs : ∀ d ∈ classicDivsC R cl bAr Anu, XIv.Mem d t := by
      intro d hd
      unfold classicDivsC at hd
      split at hd
      · next ds hds =>
        obtain ⟨z, hz, rfl⟩ := List.mem_map.1 hd
        obtain ⟨k, hk, he⟩ := mapM_ok_mem _ _ _ hds z hz
        have hne : ∀ b' ∈ Anu k, b' ≠ 0 := by
          rintro b' hb' rfl
          have he' := (C03_div_error_iff R (bAr k) (Anu k) (hb k) (hA k)).1.2 hb'
          rw [he'] at he
          cases he
        obtain ⟨a', ha', b', hb', rfl⟩ := hq k
        have := C03_div_encloses R (bAr k) (Anu k) z (hb k) (hA k) he t
          ⟨_, ha', b', hb', by rw [mul_div_cancel_left₀ _ (hne b' hb')]⟩
        rw [Iv.mem_def] at this
        simp [XIv.Mem, this]
      · cases hd
    have hV : ResHas t [some (Vnu.a, Vnu.b)] := .one _ ⟨_, rfl, ht.1, ht.2⟩
    have one : ∀ d ∈ classicDivsC R cl bAr Anu, PieceHas t [d] := fun d hd => .one d (hdivs d hd)
    dsimp only at h
    split at h
    · next pdiv' d ds hcd =>
      injection h with h
      subst h
      refine omegaVal_le (foldl_interR_has hnr _ hpieces _ ?_) fun hf => foldl_interR_length _ (hlen hf) _ ?_
      · have := foldl_interR_has hnr (t := t) (ds.map fun d => [d]) (by
          intro ps hps
          obtain ⟨d', hd', rfl⟩ := List.mem_map.1 hps
          exact one d' (hcd ▸ List.mem_cons_of_mem _ hd')) _
          (interR_has hnr hV (one d (hcd ▸ List.mem_cons_self)))
        rw [List.foldl_map] at this
        exact this
      · have := foldl_interR_length (R := R) (ds.map fun d => [d]) (by
          intro ps hps
          obtain ⟨d', hd', rfl⟩ := List.mem_map.1 hps
          rfl) (interR R [some (Vnu.a, Vnu.b)] [d]) (interR_length rfl rfl)
        rw [List.foldl_map] at this
        exact this
    · next p ps hcd =>
      injection h with h
      subst h
      exact omegaVal_le (foldl_interR_has hnr _ hpieces _ (interR_has hnr hV (hpieces p List.mem_cons_self)))
        fun hf => foldl_interR_length _ (hlen hf) _ (interR_length rfl (hlen hf p List.mem_cons_self))
    · cases h

/-- One half: the list stays sorted and below `omega`, keeps its elements, and accounts for the solutions of the
half. -/
theorem pssHalfC_spec {n m : ℕ} (hm : 0 < m) (cl : Fin (m + 1) → Fin n → Bool) (P : PssArg K n m) (hP : P.OK) (omega : K) (L L' : List (PssEl K m))
    (Q : Fin m → Iv K) (eta : Option K) (hsort : SortedQ L) (hle : ∀ e ∈ L, e.q ≤ omega)
    (hord : ∀ e ∈ L, ∀ j, Ordinary (e.Q j)) (hQp : ∀ j, Ordinary (Q j))
    (h : pssHalfC cl P omega L Q = .ok (L', eta)) :
    SortedQ L' ∧ (∀ e ∈ L', e.q ≤ omega) ∧ (∀ e ∈ L', ∀ j, Ordinary (e.Q j)) ∧ (∀ e ∈ L, e ∈ L') ∧
    ∀ x, United P.A P.b x → x P.nu ∈ P.V P.nu → (∀ j, x (P.nu.succAbove j) ∈ Q j) → Covered P omega L' x := by
  have ins : ∀ (q : K) (ar : Bool), q < omega → (∀ x, United P.A P.b x → x P.nu ∈ P.V P.nu →
      (∀ j, x (P.nu.succAbove j) ∈ Q j) → q ≤ x P.nu) →
      SortedQ (pssInsert ⟨Q, q, ar⟩ L) ∧ (∀ e ∈ pssInsert ⟨Q, q, ar⟩ L, e.q ≤ omega) ∧
      (∀ e ∈ pssInsert ⟨Q, q, ar⟩ L, ∀ j, Ordinary (e.Q j)) ∧
      (∀ e ∈ L, e ∈ pssInsert ⟨Q, q, ar⟩ L) ∧
      ∀ x, United P.A P.b x → x P.nu ∈ P.V P.nu → (∀ j, x (P.nu.succAbove j) ∈ Q j) →
        Covered P omega (pssInsert ⟨Q, q, ar⟩ L) x := by
    intro q ar hq hlow
    refine ⟨sortedQ_insert _ _ hsort, fun e he => ?_, fun e he => ?_,
      fun e he => (mem_pssInsert _ _ _).2 (Or.inr he), fun x hx hxV hxQ =>
        Or.inl ⟨_, (mem_pssInsert _ _ _).2 (Or.inl rfl), hxQ, hlow x hx hxV hxQ⟩⟩
    · rcases (mem_pssInsert _ _ _).1 he with rfl | he
      · exact hq.le
      · exact hle e he
    · rcases (mem_pssInsert _ _ _).1 he with rfl | he
      · exact hQp
      · exact hord e he
  have keep : (∀ x, United P.A P.b x → x P.nu ∈ P.V P.nu → (∀ j, x (P.nu.succAbove j) ∈ Q j) → omega ≤ x P.nu) →
      SortedQ L ∧ (∀ e ∈ L, e.q ≤ omega) ∧ (∀ e ∈ L, ∀ j, Ordinary (e.Q j)) ∧ (∀ e ∈ L, e ∈ L) ∧
      ∀ x, United P.A P.b x → x P.nu ∈ P.V P.nu → (∀ j, x (P.nu.succAbove j) ∈ Q j) → Covered P omega L x :=
    fun hlow => ⟨hsort, hle, hord, fun _ he => he, fun x hx hxV hxQ => Or.inr (hlow x hx hxV hxQ)⟩
  unfold pssHalfC at h
  split_ifs at h with hz
  · -- a component contains zero
    have low : ∀ o, omegaFnC P.R (cl P.nu) (P.V P.nu) (pssRes P.R P.A P.b P.nu Q) (fun i => P.A i P.nu) = .ok o →
        ∀ x, United P.A P.b x → x P.nu ∈ P.V P.nu → (∀ j, x (P.nu.succAbove j) ∈ Q j) →
          ∃ q, o = some q ∧ q ≤ x P.nu := by
      intro o ho x hx hxV hxQ
      exact omegaFnC_le hP.nr _ _ _ _ (fun i => (pssRes_mem hm P.A P.b P.nu Q hP.A hP.b hQp i).1)
        (fun i => hP.A i P.nu) (x P.nu) hxV
        (fun i => (pssRes_mem hm P.A P.b P.nu Q hP.A hP.b hQp i).2 x hx hxQ) o ho
    split at h
    · cases h
    · next ho =>
      injection h with h
      obtain ⟨rfl, rfl⟩ := Prod.mk.inj h
      refine keep fun x hx hxV hxQ => ?_
      obtain ⟨q, hq, -⟩ := low _ ho x hx hxV hxQ
      cases hq
    · next q ho =>
      split_ifs at h with hq
      · split at h
        · cases h
        · injection h with h
          obtain ⟨rfl, rfl⟩ := Prod.mk.inj h
          refine ins q true hq fun x hx hxV hxQ => ?_
          obtain ⟨q', hq', hle'⟩ := low _ ho x hx hxV hxQ
          injection hq' with hq'
          exact hq' ▸ hle'
      · injection h with h
        obtain ⟨rfl, rfl⟩ := Prod.mk.inj h
        refine keep fun x hx hxV hxQ => ?_
        obtain ⟨q', hq', hle'⟩ := low _ ho x hx hxV hxQ
        injection hq' with hq'
        exact (not_lt.1 hq).trans (hq' ▸ hle')
  · have h0 : ∀ j, ¬ (0 : K) ∈ Q j := by
      intro j hj
      exact hz (List.any_eq_true.2 ⟨j, List.mem_finRange j, containsNum_iff.2 hj⟩)
    have low : ∀ x, United P.A P.b x → x P.nu ∈ P.V P.nu → (∀ j, x (P.nu.succAbove j) ∈ Q j) →
        exactOmega P.R P.lp P.A P.b P.nu (P.V P.nu) Q ≤ x P.nu := fun x hx hxV hxQ =>
      exactOmega_le hP.nr P.lp hP.lpOK hP.lpComplete P.A P.b P.nu _ hP.big Q x hx hxV hxQ h0
    dsimp only at h
    split_ifs at h with hq
    · injection h with h
      obtain ⟨rfl, rfl⟩ := Prod.mk.inj h
      exact ins _ false hq low
    · injection h with h
      obtain ⟨rfl, rfl⟩ := Prod.mk.inj h
      exact keep fun x hx hxV hxQ => (not_lt.1 hq).trans (low x hx hxV hxQ)

/-- The loop keeps the bound, for every number of passes. -/
theorem pssLoopC_le {n m : ℕ} (hm : 0 < m) (cl : Fin (m + 1) → Fin n → Bool) (P : PssArg K n m) (hP : P.OK) (fuel : ℕ) :
    ∀ (omega : K) (L : List (PssEl K m)) (item : ℕ) (Q : Fin m → Iv K) (e : PssEl K m), L[item]? = some e → e.Q = Q →
      SortedQ L → (∀ e ∈ L, e.q ≤ omega) → (∀ e ∈ L, ∀ j, Ordinary (e.Q j)) → ∀ r, pssLoopC cl P fuel omega L item Q = .ok r →
      ∀ x, United P.A P.b x → x P.nu ∈ P.V P.nu → Covered P omega L x → r ≤ x P.nu := by
  induction fuel with
  | zero =>
      intro omega L item Q e _ _ hsort hle _ r h x _ _ hx
      exact pssHead_le P omega L hsort hle r h x hx
  | succ fuel ih =>
      intro omega L item Q e hitem heQ hsort hle hord r h x hxU hxV hx
      unfold pssLoopC at h
      split at h
      · cases h
      · next k hk =>
        split_ifs at h with htol
        · dsimp only at h
          have hsub : ∀ f ∈ L.eraseIdx item, f ∈ L := fun f hf => (L.eraseIdx_sublist item).subset hf
          have hQo : ∀ j, Ordinary (Q j) := by
            rw [← heQ]
            exact hord e (List.mem_of_getElem? hitem)
          obtain ⟨ho1, ho2⟩ := pssSplit_ordinary hP.nr Q k hQo
          split at h
          · cases h
          · next L1 eta1 h1 =>
            obtain ⟨s1, l1, o1, k1, c1⟩ := pssHalfC_spec hm cl P hP omega _ L1 _ eta1 (hsort.sublist (L.eraseIdx_sublist item))
              (fun f hf => hle f (hsub f hf)) (fun f hf => hord f (hsub f hf)) ho1 h1
            split at h
            · cases h
            · next L2 eta2 h2 =>
              obtain ⟨s2, l2, o2, k2, c2⟩ := pssHalfC_spec hm cl P hP omega L1 L2 _ eta2 s1 l1 o1 ho2 h2
              have hc : Covered P omega L2 x := by
                rcases hx with ⟨f, hf, hfQ, hfq⟩ | hx
                · by_cases hfe : f ∈ L.eraseIdx item
                  · exact Or.inl ⟨f, k2 f (k1 f hfe), hfQ, hfq⟩
                  · have hfeq : f = e := by
                      obtain ⟨i, hi⟩ := List.mem_iff_getElem?.1 hf
                      by_cases hii : i = item
                      · rw [hii, hitem] at hi
                        injection hi with hi
                        exact hi.symm
                      · exact absurd (List.mem_eraseIdx_iff_getElem?.2 ⟨i, hii, hi⟩) hfe
                    rw [hfeq, heQ] at hfQ
                    rcases pssSplit_covers P.R Q k (fun j => x (P.nu.succAbove j)) hfQ with hy | hy
                    · rcases c1 x hxU hxV hy with ⟨g, hg, hg2⟩ | h3
                      · exact Or.inl ⟨g, k2 g hg, hg2⟩
                      · exact Or.inr h3
                    · exact c2 x hxU hxV hy
                · exact Or.inr hx
              obtain ⟨s3, l3, u3, c3⟩ := pssPrune_spec P omega L2 (etaMin eta1 eta2) s2 l2
              split at h
              · exact pssHead_le P _ _ s3 l3 r h x (c3 x hc)
              · next item' hi =>
                split at h
                · exact pssHead_le P _ _ s3 l3 r h x (c3 x hc)
                · next l hl =>
                  exact ih _ _ item' l.Q l hl rfl s3 l3 (fun f hf => o2 f (u3 f hf)) r h x hxU hxV (c3 x hc)
        · exact pssHead_le P omega L hsort hle r h x hx

/-- C158, one component: the value returned by `algo` is not above the component of any solution in the start box,
whatever the classification of the rows, the number of passes and the tolerance. -/
theorem C158_algo_le {n m : ℕ} (cl : Fin (m + 1) → Fin n → Bool) (P : PssArg K n m) (hP : P.OK) (maxiter : ℤ) (r : K)
    (h : pssAlgoC cl P maxiter = .ok r) (x : Fin (m + 1) → K) (hx : United P.A P.b x) (hV : InVec x P.V) : r ≤ x P.nu := by
  unfold pssAlgoC at h
  split_ifs at h with hm
  dsimp only at h
  refine pssLoopC_le (Nat.pos_of_ne_zero hm) cl P hP _ _ _ 0 _ _ rfl rfl (List.pairwise_singleton _ _) ?_ ?_ r h x hx
    (hV P.nu) (Or.inl ⟨_, List.mem_singleton.2 rfl, fun j => hV _, (hV P.nu).1⟩)
  · intro e he
    rw [List.mem_singleton.1 he]
    exact (hP.V P.nu).2
  · intro e he j
    rw [List.mem_singleton.1 he]
    exact hP.V _

theorem pssAllC_le {n m : ℕ} (cl : Fin (m + 1) → Fin n → Bool) (P : PssArg K n m) (hP : ∀ nu, ({ P with nu := nu } : PssArg K n m).OK) (maxiter : ℤ)
    (x : Fin (m + 1) → K) (hx : United P.A P.b x) (hV : InVec x P.V) :
    ∀ (nus : List (Fin (m + 1))) (rs : List K), pssAllC cl P maxiter nus = .ok rs →
      List.Forall₂ (fun nu r => r ≤ x nu) nus rs := by
  intro nus
  induction nus with
  | nil =>
      intro rs h
      cases h
      exact List.Forall₂.nil
  | cons nu nus ih =>
      intro rs h
      unfold pssAllC at h
      split at h
      · cases h
      · next q hq =>
        cases h1 : pssAllC cl P maxiter nus with
        | error e => rw [h1] at h; cases h
        | ok t =>
            rw [h1] at h
            cases h
            exact List.Forall₂.cons (C158_algo_le cl _ (hP nu) maxiter q hq x hx hV) (ih t h1)

/-- C158, the part that holds whatever the number types: for every classification of the rows the bounds returned
enclose the components of every solution (start estimate right for both right-hand sides, exact point quotients). -/
theorem C158_enclosure {R : Rnd K} (hnr : ∀ x, R.nr x = x) {n m : ℕ} (cl : Fin (m + 1) → Fin n → Bool) (lp : LpSolver K (PssRow n m) (Fin (m + 1)))
    (hlp : LpOK lp) (hc : LpComplete lp) (start : (Fin n → Iv K) → Fin (m + 1) → Iv K) (tol : K) (maxiter : ℤ)
    (A : Fin n → Fin (m + 1) → Iv K) (b : Fin n → Iv K) (hA : ∀ i j, Ordinary (A i j)) (hb : ∀ i, Ordinary (b i))
    (hs1 : StartOK (start fun i => (b i).rmul R 1) A fun i => (b i).rmul R 1)
    (hs2 : StartOK (start fun i => ((b i).rmul R 1).rmul R (-1)) A fun i => ((b i).rmul R 1).rmul R (-1)) (nu : Option (Fin (m + 1))) (X : List (Iv K))
    (h : pssC R cl lp start tol maxiter A b nu = .ok X) (x : Fin (m + 1) → K) (hx : United A b x) :
    List.Forall₂ (fun k I => x k ∈ I) (nu.elim (List.finRange (m + 1)) fun k => [k]) X := by
  have hb1 : ∀ i, Ordinary ((b i).rmul R 1) := fun i => (C05_rmul_encloses R 1 (b i) (hb i)).2.2
  have hb2 : ∀ i, Ordinary (((b i).rmul R 1).rmul R (-1)) := fun i => (C05_rmul_encloses R (-1) _ (hb1 i)).2.2
  have hm1 : ∀ i t, t ∈ b i → t ∈ (b i).rmul R 1 := fun i t ht =>
    (C05_rmul_encloses R 1 (b i) (hb i)).1 _ ⟨t, ht, by rw [one_mul]⟩
  have hm2 : ∀ i t, t ∈ b i → -t ∈ ((b i).rmul R 1).rmul R (-1) := fun i t ht =>
    (C05_rmul_encloses R (-1) _ (hb1 i)).1 _ ⟨t, hm1 i t ht, by ring⟩
  have hx1 : United A (fun i => (b i).rmul R 1) x := by
    obtain ⟨A', hA', b', hb', he⟩ := hx
    exact ⟨A', hA', b', fun i => hm1 i _ (hb' i), he⟩
  have hx2 := united_neg A b _ x hx hm2
  obtain ⟨o1, g1, e1⟩ := hs1
  obtain ⟨o2, g2, e2⟩ := hs2
  have hnus : pssNus nu = nu.elim (List.finRange (m + 1)) fun k => [k] := by
    cases nu <;> rfl
  unfold pssC at h
  dsimp only at h
  split at h
  · cases h
  · next inf hinf =>
    split at h
    · cases h
    · next sup hsup =>
      injection h with h
      rw [← h]
      have hi := pssAllC_le cl _ (fun k => ⟨hnr, hlp, hc, hA, hb1, o1, g1 k⟩) maxiter x hx1 (e1 x hx1) _ inf hinf
      have hs := pssAllC_le cl _ (fun k => ⟨hnr, hlp, hc, hA, hb2, o2, g2 k⟩) maxiter _ hx2 (e2 _ hx2) _ sup hsup
      rw [hnus] at hi hs
      clear hinf hsup h hnus
      revert sup
      generalize (nu.elim (List.finRange (m + 1)) fun k => [k]) = nus at hi ⊢
      induction hi with
      | nil =>
          intro sup hs
          cases hs
          exact List.Forall₂.nil
      | cons h1 h2 ih =>
          intro sup hs
          cases hs with
          | cons h3 h4 => exact List.Forall₂.cons ((mkIv_mem _ _ _).2 ⟨h1, by linarith⟩) (ih _ h4)



/-- C158 for matrices of interval objects: the bounds are valid whatever the number types of the endpoints, and however
the views of the columns are cast. -/
theorem C158_objects_enclosure {R : Rnd ℚ} (hnr : ∀ x, R.nr x = x) {n m : ℕ} (lp : LpSolver ℚ (PssRow n m) (Fin (m + 1)))
    (hlp : LpOK lp) (hc : LpComplete lp) (start : (Fin n → Iv ℚ) → Fin (m + 1) → Iv ℚ) (tol : ℚ) (maxiter : ℤ)
    (A : Fin n → Fin (m + 1) → FIv) (b : Fin n → Iv ℚ) (hA : ∀ i j, Ordinary (ivRat (A i j))) (hb : ∀ i, Ordinary (b i))
    (hs1 : StartOK (start fun i => (b i).rmul R 1) (fun i j => ivRat (A i j)) fun i => (b i).rmul R 1)
    (hs2 : StartOK (start fun i => ((b i).rmul R 1).rmul R (-1)) (fun i j => ivRat (A i j))
      fun i => ((b i).rmul R 1).rmul R (-1))
    (nu : Option (Fin (m + 1))) (X : List (Iv ℚ)) (h : pssObj R lp start tol maxiter A b nu = .ok X) (x : Fin (m + 1) → ℚ)
    (hx : United (fun i j => ivRat (A i j)) b x) :
    List.Forall₂ (fun k I => x k ∈ I) (nu.elim (List.finRange (m + 1)) fun k => [k]) X := by
  unfold pssObj at h
  split at h
  · cases h
  · exact C158_enclosure hnr _ lp hlp hc start tol maxiter _ b hA hb hs1 hs2 nu X h x hx

/-! ## The same result as for floats -/

/-- With the right classification the method is the one of `ModelPSS`. -/
theorem pssC_right (R : Rnd K) {n m : ℕ} (lp : LpSolver K (PssRow n m) (Fin (m + 1)))
    (start : (Fin n → Iv K) → Fin (m + 1) → Iv K) (tol : K) (maxiter : ℤ) (A : Fin n → Fin (m + 1) → Iv K)
    (b : Fin n → Iv K) (nu : Option (Fin (m + 1))) (cl : Fin (m + 1) → Fin n → Bool)
    (hcl : ∀ k ∈ pssNus nu, ∀ i, cl k i = classicRow R (A i k)) :
    pssC R cl lp start tol maxiter A b nu = pss R lp start tol maxiter A b nu := by
  have hom : ∀ (c : Fin n → Bool) (Vnu : Iv K) (bAr Anu : Fin n → Iv K), (∀ i, c i = classicRow R (Anu i)) →
      omegaFnC R c Vnu bAr Anu = omegaFn R Vnu bAr Anu := by
    intro c Vnu bAr Anu hc
    obtain rfl : c = fun i => classicRow R (Anu i) := funext hc
    rfl
  have hhalf : ∀ (P : PssArg K n m), P.R = R → (∀ i, cl P.nu i = classicRow R (P.A i P.nu)) → ∀ omega L Q,
      pssHalfC cl P omega L Q = pssHalf P omega L Q := by
    intro P hR hP omega L Q
    have h1 : ∀ Vnu bAr, omegaFnC P.R (cl P.nu) Vnu bAr (fun i => P.A i P.nu) =
        omegaFn P.R Vnu bAr (fun i => P.A i P.nu) := by
      intro Vnu bAr
      rw [hR]
      exact hom _ _ _ _ hP
    simp only [pssHalfC, pssHalf, h1]
    generalize omegaFn P.R (P.V P.nu) (pssRes P.R P.A P.b P.nu Q) (fun i => P.A i P.nu) = o1
    generalize omegaFn P.R (P.V P.nu) (pssResMid P.R P.A P.b P.nu Q) (fun i => P.A i P.nu) = o2
    rcases o1 with e | (_ | q) <;> rcases o2 with e' | o2 <;> rfl
  have hloop : ∀ (P : PssArg K n m), P.R = R → (∀ i, cl P.nu i = classicRow R (P.A i P.nu)) → ∀ fuel omega L item Q,
      pssLoopC cl P fuel omega L item Q = pssLoop P fuel omega L item Q := by
    intro P hR hP fuel
    induction fuel with
    | zero => intros; rfl
    | succ fuel ih =>
      intro omega L item Q
      simp only [pssLoopC, pssLoop, hhalf P hR hP, ih]
      cases argmaxOn (fun j => (Q j).wid P.R) (List.finRange m) with
      | none => rfl
      | some k =>
        dsimp only
        congr 1
  have hall : ∀ (b' : Fin n → Iv K) (V : Fin (m + 1) → Iv K) (nus : List (Fin (m + 1))),
      (∀ k ∈ nus, ∀ i, cl k i = classicRow R (A i k)) →
      pssAllC cl ⟨R, lp, A, b', V, 0, tol⟩ maxiter nus = pssAll ⟨R, lp, A, b', V, 0, tol⟩ maxiter nus := by
    intro b' V nus hn
    induction nus with
    | nil => rfl
    | cons k t ih =>
      have h1 : pssAlgoC cl ⟨R, lp, A, b', V, k, tol⟩ maxiter = pssAlgo ⟨R, lp, A, b', V, k, tol⟩ maxiter := by
        simp only [pssAlgoC, pssAlgo]
        rw [hloop ⟨R, lp, A, b', V, k, tol⟩ rfl (hn k List.mem_cons_self)]
      simp only [pssAllC, pssAll, h1, ih fun k' hk' => hn k' (List.mem_cons_of_mem _ hk')]
      cases pssAlgo ⟨R, lp, A, b', V, k, tol⟩ maxiter <;> rfl
  unfold pssC pss
  dsimp only
  rw [hall _ _ _ hcl, hall _ _ _ hcl]
  generalize pssAll ⟨R, lp, A, fun i => (b i).rmul R 1, start fun i => (b i).rmul R 1, 0, tol⟩ maxiter (pssNus nu) = r1
  generalize pssAll ⟨R, lp, A, fun i => ((b i).rmul R 1).rmul R (-1), start fun i => ((b i).rmul R 1).rmul R (-1), 0, tol⟩
    maxiter (pssNus nu) = r2
  rcases r1 with e | r1 <;> rcases r2 with e' | r2 <;> rfl

theorem wrap64_small {z : ℤ} (h : |z| ≤ 2 ^ 62) : wrap64 z = z := by
  obtain ⟨h1, h2⟩ := abs_le.1 h
  unfold wrap64
  rw [Int.emod_eq_of_lt (by linarith) (by linarith)]
  ring

theorem mulPos_small {R : Rnd ℚ} (hnr : ∀ x, R.nr x = x) {x y : Num} (hx : |numRat x| ≤ 2 ^ 31) (hy : |numRat y| ≤ 2 ^ 31) :
    mulPos R x y = decide (0 < numRat x * numRat y) := by
  cases x with
  | int p =>
    cases y with
    | int q =>
      simp only [numRat] at hx hy
      have h : |p * q| ≤ 2 ^ 62 := by
        have hp : |p| ≤ 2 ^ 31 := by exact_mod_cast hx
        have hq : |q| ≤ 2 ^ 31 := by exact_mod_cast hy
        rw [abs_mul]
        calc |p| * |q| ≤ 2 ^ 31 * 2 ^ 31 := mul_le_mul hp hq (abs_nonneg _) (by positivity)
          _ = 2 ^ 62 := by norm_num
      simp only [mulPos, wrap64_small h, numRat]
      refine decide_eq_decide.2 ⟨fun h => ?_, fun h => ?_⟩
      · exact_mod_cast h
      · exact_mod_cast h
    | dbl d => simp only [mulPos, hnr]
  | dbl d => simp only [mulPos, hnr]

/-- With right views and endpoints up to `2^31` the decision of line 214 is right. -/
theorem viewClass_right {R : Rnd ℚ} (hnr : ∀ x, R.nr x = x) {n : ℕ} (Anu : Fin n → FIv) (h : ViewsRight (List.ofFn Anu))
    (hs : ∀ i, |numRat (Anu i).a| ≤ 2 ^ 31 ∧ |numRat (Anu i).b| ≤ 2 ^ 31) :
    viewClass R Anu = .ok fun i => classicRow R (ivRat (Anu i)) := by
  have hv := viewFin_right h
  obtain ⟨⟨la, h1, -⟩, ⟨lb, h3, -⟩⟩ := h
  rw [viewFin, h1, h3] at hv
  rw [viewClass, h1, h3]
  dsimp only at hv ⊢
  injection hv with hv
  congr 1
  funext i
  have hi := congrFun hv i
  simp only [endsIv, Iv.mk.injEq, true_and] at hi
  rw [mulPos_small hnr (by rw [hi.1]; exact (hs i).1) (by rw [hi.2]; exact (hs i).2), hi.1, hi.2, classicRow, hnr]
  rfl

/-- C158 as stated: the result depends on the values of the elements of the matrix only. -/
def C158_statement : Prop :=
  ∀ (n m : ℕ) (lp : LpSolver ℚ (PssRow n m) (Fin (m + 1))), LpOK lp → LpComplete lp →
  ∀ (A A' : Fin n → Fin (m + 1) → FIv), (∀ i j, Ordinary (ivRat (A i j))) → (∀ i j, ivRat (A i j) = ivRat (A' i j)) →
  ∀ (b : Fin n → Iv ℚ), (∀ i, Ordinary (b i)) → ∀ (x0 : Fin (m + 1) → Iv ℚ), (∀ j, Ordinary (x0 j)) →
  ∀ (tol : ℚ) (maxiter : ℤ) (nu : Option (Fin (m + 1))),
    pssObj Rnd.exact lp (startGiven x0) tol maxiter A b nu = pssObj Rnd.exact lp (startGiven x0) tol maxiter A' b nu

theorem mapM_ok_of_all {α β : Type*} (f : α → Except Err β) (g : α → β) (l : List α) (h : ∀ a ∈ l, f a = .ok (g a)) :
    l.mapM f = .ok (l.map g) := by
  induction l with
  | nil => rfl
  | cons a l ih =>
    rw [List.mapM_cons, h a List.mem_cons_self, ih fun b hb => h b (List.mem_cons_of_mem _ hb)]
    rfl

/-- C158 (partial): when the views of the columns used are right and the endpoints are at most `2^31`, the result is the
one for exact values, so two such matrices with the same values give the same result.  Missing: columns that begin
with an integer and continue with other floats, for which the claim is false (`C158_false`), and integers whose
products exceed `int64`. -/
theorem C158_right_views_partial {R : Rnd ℚ} (hnr : ∀ x, R.nr x = x) {n m : ℕ}
    (lp : LpSolver ℚ (PssRow n m) (Fin (m + 1))) (start : (Fin n → Iv ℚ) → Fin (m + 1) → Iv ℚ) (tol : ℚ) (maxiter : ℤ)
    (A : Fin n → Fin (m + 1) → FIv) (b : Fin n → Iv ℚ) (nu : Option (Fin (m + 1)))
    (hv : ∀ k ∈ pssNus nu, ViewsRight (List.ofFn fun i => A i k))
    (hs : ∀ i j, |numRat (A i j).a| ≤ 2 ^ 31 ∧ |numRat (A i j).b| ≤ 2 ^ 31) :
    pssObj R lp start tol maxiter A b nu = pss R lp start tol maxiter (fun i j => ivRat (A i j)) b nu := by
  have hk : ∀ k ∈ pssNus nu, viewClass R (fun i => A i k) = .ok fun i => classicRow R (ivRat (A i k)) :=
    fun k hk => viewClass_right hnr _ (hv k hk) fun i => hs i k
  unfold pssObj
  rw [mapM_ok_of_all _ _ _ hk]
  dsimp only
  refine pssC_right R lp start tol maxiter _ b nu _ fun k hk' i => ?_
  unfold objCls
  rw [hk k hk']

/-! ## Example and counterexample -/

/-- `x₀ + x₁ = [-50, 50]`, `[0.5, 2]·x₀ = 20`, the point coefficients given as integers. -/
def clsA : Fin 2 → Fin 2 → FIv := ![![⟨.classical, .int 1, .int 1⟩, ⟨.classical, .int 1, .int 1⟩],
  ![⟨.classical, .dbl (.fin (1 / 2)), .dbl (.fin 2)⟩, ⟨.classical, .int 0, .int 0⟩]]
/-- The same with floats. -/
def clsAf : Fin 2 → Fin 2 → FIv := fun i j =>
  ⟨.classical, .dbl (.fin (numRat (clsA i j).a)), .dbl (.fin (numRat (clsA i j).b))⟩
/-- The right-hand side. -/
def clsb : Fin 2 → Iv ℚ := ![⟨.classical, -50, 50⟩, ⟨.classical, 20, 20⟩]
/-- The start box. -/
def clsX : Fin 2 → Iv ℚ := fun _ => ⟨.classical, -100, 100⟩

/-- One pass: with the integers the bounds of the start box are returned for the first component ... -/
theorem cls_run_ints : pssEnds (pssObj Rnd.exact (pssLpEx 2 1) (startGiven clsX) (1 / 10 ^ 12) 0 clsA clsb (some 0)) =
    some [(-100, 100)] := by decide +kernel

/-- ... and with floats the exact range. -/
theorem cls_run_floats : pssEnds (pssObj Rnd.exact (pssLpEx 2 1) (startGiven clsX) (1 / 10 ^ 12) 0 clsAf clsb (some 0)) =
    some [(10, 40)] := by decide +kernel

/-- C158 is false: written with the integer 1 instead of the float 1.0 in the first row, the coefficient `[0.5, 2]` of
the second row is read as `[0, 2]`, treated as containing zero, and the bounds are worse. -/
theorem C158_false : ¬ C158_statement := by
  intro h
  have h1 := h 2 1 (pssLpEx 2 1) (lpChoice_ok _ _) (lpChoice_complete _ _) clsA clsAf
    (by intro i j; fin_cases i <;> fin_cases j <;> norm_num [clsA, Ordinary, ivRat, numRat])
    (by intro i j; fin_cases i <;> fin_cases j <;> rfl) clsb
    (by intro i; fin_cases i <;> norm_num [clsb, Ordinary]) clsX (fun _ => ⟨rfl, by norm_num [clsX]⟩) (1 / 10 ^ 12) 0 (some 0)
  have h2 := congrArg pssEnds h1
  rw [cls_run_ints, cls_run_floats] at h2
  norm_num at h2

/-- The start box is right for the system, as `C158_objects_enclosure` requires. -/
example : StartOK clsX (fun i j => ivRat (clsA i j)) clsb := by
  refine ⟨fun _ => ⟨rfl, by norm_num [clsX]⟩, fun _ => by norm_num [clsX], ?_⟩
  rintro x ⟨A', hA', b', hb', he⟩
  have e0 := he 0
  have e1 := he 1
  have a00 := hA' 0 0
  have a01 := hA' 0 1
  have a10 := hA' 1 0
  have a11 := hA' 1 1
  have b0 := hb' 0
  have b1 := hb' 1
  simp only [apply, Fin.sum_univ_two] at e0 e1
  simp [clsA, clsb, ivRat, numRat, Iv.mem_def] at a00 a01 a10 a11 b0 b1
  have h00 : A' 0 0 = 1 := le_antisymm a00.2 a00.1
  have h01 : A' 0 1 = 1 := le_antisymm a01.2 a01.1
  have h11 : A' 1 1 = 0 := le_antisymm a11.2 a11.1
  have hb1 : b' 1 = 20 := le_antisymm b1.2 b1.1
  rw [h00, h01] at e0
  rw [h11, hb1] at e1
  have hx0 : 0 < x 0 := by
    by_contra hn
    nlinarith [a10.1, not_lt.1 hn]
  have l1 : 10 ≤ x 0 := by nlinarith [a10.2]
  have l2 : x 0 ≤ 40 := by nlinarith [a10.1]
  intro j
  fin_cases j
  · show (-100 : ℚ) ≤ x 0 ∧ x 0 ≤ 100
    constructor <;> linarith
  · show (-100 : ℚ) ≤ x 1 ∧ x 1 ≤ 100
    constructor <;> linarith [b0.1, b0.2]

/-- Column views that are right, for `C158_right_views_partial`. -/
example : ViewsRight (List.ofFn fun i => clsAf i 0) :=
  PlainEnds.right ⟨by simp, by intro X hX; simp [clsAf] at hX; rcases hX with rfl | rfl <;> exact ⟨trivial, trivial⟩,
    .inl ⟨_, _, _, rfl, rfl, rfl⟩⟩

/-- The product of two large integers wraps around: `[-3037000500, 3037000500]` is taken for an interval without zero
(the quotient then raises, which is caught, and the row is not used). -/
example : mulPos Rnd.exact (.int (-3037000500)) (.int 3037000500) = true ∧
    classicRow Rnd.exact (⟨.classical, -3037000500, 3037000500⟩ : Iv ℚ) = false := by
  refine ⟨by decide +kernel, by decide +kernel⟩

/-! ## More passes do not help -/

theorem cls_range {Z : Iv ℚ} {S : ℚ → Prop} (h : IsRange Z S) {l u : ℚ} (hl : S l) (hu : S u)
    (hb : ∀ s, S s → l ≤ s ∧ s ≤ u) : Z.a = l ∧ Z.b = u :=
  ⟨le_antisymm (h.1 l hl).1 (hb _ h.2.1).1, le_antisymm (hb _ h.2.2).2 (h.1 u hu).2⟩

/-- The arguments of `algo` for the first component of the example. -/
def clsP (lp : LpSolver ℚ (PssRow 2 1) (Fin 2)) (tol : ℚ) : PssArg ℚ 2 1 :=
  ⟨Rnd.exact, lp, fun i j => ivRat (clsA i j), clsb, clsX, 0, tol⟩

theorem clsA_ordinary (i j : Fin 2) : Ordinary (ivRat (clsA i j)) := by
  fin_cases i <;> fin_cases j <;> norm_num [clsA, Ordinary, ivRat, numRat]

theorem clsb_ordinary (i : Fin 2) : Ordinary (clsb i) := by
  fin_cases i <;> norm_num [clsb, Ordinary]

theorem clsP_ok (lp : LpSolver ℚ (PssRow 2 1) (Fin 2)) (h1 : LpOK lp) (h2 : LpComplete lp) (tol : ℚ) : (clsP lp tol).OK :=
  ⟨fun _ => rfl, h1, h2, clsA_ordinary, clsb_ordinary, fun _ => ⟨rfl, by norm_num [clsP, clsX]⟩, by norm_num [clsP, clsX]⟩

theorem interX_val {y : XIv ℚ} {l h s t : ℚ} (h1 : y.sup l = s) (h2 : y.inf h = t) (hst : s ≤ t) :
    interX Rnd.exact y (some (l, h)) = some (s, t) := by
  subst h1 h2
  have h0 : (0 : ℚ) ≤ interTol := by norm_num [interTol]
  have h3 : Rnd.exact.nr (y.sup l - y.inf h) ≤ interTol := by
    simp only [Rnd.exact_nr, id]
    linarith
  simp only [interX]
  rw [if_pos h3, if_neg (not_lt.2 hst)]

/-- The value of `Omega` for a box around zero: the second row, taken for one with a zero, leaves a piece that starts
at -50 or below. -/
theorem cls_omega (Q : Fin 1 → Iv ℚ) (hQ : Ordinary (Q 0)) (h0 : (0 : ℚ) ∈ Q 0) :
    ∃ q, q ≤ -50 ∧ omegaFnC Rnd.exact ![true, false] (clsX 0)
      (pssRes Rnd.exact (fun i j => ivRat (clsA i j)) clsb 0 Q) (fun i => ivRat (clsA i 0)) = .ok (some q) := by
  have ho := fun i => (pssRes_mem (R := Rnd.exact) one_pos (fun i j => ivRat (clsA i j)) clsb 0 Q clsA_ordinary
    clsb_ordinary (fun j => by rw [Fin.fin_one_eq_zero j]; exact hQ) i).1
  have es : ∀ i, pssRes Rnd.exact (fun i j => ivRat (clsA i j)) clsb 0 Q i =
      (clsb i).sub Rnd.exact ((ivRat (clsA i 1)).mul Rnd.exact (Q 0)) := by
    intro i
    simp [pssRes, dotII, objDot, dotEntry]
  have hz : ∀ i (c : ℚ), (∀ a, a ∈ ivRat (clsA i 1) ↔ a = c) → 0 ≤ c →
      ((ivRat (clsA i 1)).mul Rnd.exact (Q 0)).a = c * (Q 0).a ∧ ((ivRat (clsA i 1)).mul Rnd.exact (Q 0)).b = c * (Q 0).b := by
    intro i c hc hc0
    refine cls_range (C11_mul_range _ _ (clsA_ordinary i 1) hQ) ⟨c, (hc c).2 rfl, _, ⟨le_rfl, hQ.2⟩, rfl⟩
      ⟨c, (hc c).2 rfl, _, ⟨hQ.2, le_rfl⟩, rfl⟩ ?_
    rintro s ⟨x, hx, y, hy, rfl⟩
    rw [(hc x).1 hx]
    exact ⟨mul_le_mul_of_nonneg_left hy.1 hc0, mul_le_mul_of_nonneg_left hy.2 hc0⟩
  have z0 := hz 0 1 (by intro a; simp only [clsA, ivRat, numRat, Iv.mem_def]; norm_num [le_antisymm_iff, and_comm]) (by norm_num)
  have z1 := hz 1 0 (by intro a; simp only [clsA, ivRat, numRat, Iv.mem_def]; norm_num [le_antisymm_iff, and_comm]) (by norm_num)
  have r0 : (pssRes Rnd.exact (fun i j => ivRat (clsA i j)) clsb 0 Q 0).a = -50 - (Q 0).b ∧
      (pssRes Rnd.exact (fun i j => ivRat (clsA i j)) clsb 0 Q 0).b = 50 - (Q 0).a := by
    rw [es]
    simp only [Iv.sub, Rnd.exact_dn, Rnd.exact_up, id, z0.1, z0.2, clsb]
    norm_num
  have r1 : (pssRes Rnd.exact (fun i j => ivRat (clsA i j)) clsb 0 Q 1).a = 20 ∧
      (pssRes Rnd.exact (fun i j => ivRat (clsA i j)) clsb 0 Q 1).b = 20 := by
    rw [es]
    simp only [Iv.sub, Rnd.exact_dn, Rnd.exact_up, id, z1.1, z1.2, clsb]
    norm_num
  set B := pssRes Rnd.exact (fun i j => ivRat (clsA i j)) clsb 0 Q with hB
  have hd : classicDivsC Rnd.exact ![true, false] B (fun i => ivRat (clsA i 0)) = [⟨some (-50 - (Q 0).b), some (50 - (Q 0).a)⟩] := by
    obtain ⟨Z, hZ, hZo⟩ := (C03_div_error_iff Rnd.exact (B 0) (ivRat (clsA 0 0)) (ho 0) (clsA_ordinary 0 0)).2.2
      (by norm_num [clsA, ivRat, numRat, Iv.mem_def])
    have hf : ((List.finRange 2).filter fun k => (![true, false] : Fin 2 → Bool) k) = [0] := by decide
    have hr := cls_range (C11_div_range _ _ Z (ho 0) (clsA_ordinary 0 0) hZ) (l := (B 0).a) (u := (B 0).b)
      ⟨_, ⟨le_rfl, (ho 0).2⟩, 1, by norm_num [clsA, ivRat, numRat, Iv.mem_def], by simp⟩
      ⟨_, ⟨(ho 0).2, le_rfl⟩, 1, by norm_num [clsA, ivRat, numRat, Iv.mem_def], by simp⟩ (by
        rintro s ⟨x, hx, y, hy, rfl⟩
        have : y = 1 := by
          simp [clsA, ivRat, numRat, Iv.mem_def] at hy
          exact le_antisymm hy.2 hy.1
        rw [this, div_one]
        exact hx)
    unfold classicDivsC
    rw [hf, List.mapM_cons, hZ]
    simp only [List.mapM_nil, bind, Except.bind, pure, Except.pure, List.map_cons, List.map_nil, hr.1, hr.2, r0.1, r0.2]
  have hk : kdiv Rnd.exact (B 1) (ivRat (clsA 1 0)) (numFuncC false (ivRat (clsA 1 0))) = .ok [⟨none, some 40⟩, ⟨some 10, none⟩] := by
    have e : numFuncC false (ivRat (clsA 1 0)) = 2 := by decide +kernel
    have ea : (ivRat (clsA 1 0)).a = 1 / 2 := rfl
    have eb : (ivRat (clsA 1 0)).b = 2 := rfl
    rw [e]
    unfold kdiv
    rw [if_neg (by rw [containsNum_iff, Iv.mem_def, r1.1]; norm_num), if_neg (by rw [r1.2]; norm_num),
      if_pos (by rw [r1.1]; norm_num)]
    simp only [kdivTable, leftRay, rightRay, fdiv, ea, eb, r1.1]
    norm_num [twoRays, Except.map, Rnd.exact]
  have hf : ((List.finRange 2).filter fun k => !(![true, false] : Fin 2 → Bool) k) = [1] := by decide
  have ht : ((List.finRange 2).any fun k => numFuncC ((![true, false] : Fin 2 → Bool) k) (ivRat (clsA k 0)) == 2) = true := by
    decide +kernel
  refine ⟨max (-100) (-50 - (Q 0).b), max_le (by norm_num) (by linarith [h0.2]), ?_⟩
  unfold omegaFnC
  have hm : (List.mapM (fun k => kdiv Rnd.exact (B k) (ivRat (clsA k 0)) (numFuncC ((![true, false] : Fin 2 → Bool) k) (ivRat (clsA k 0)))) [1] :
      Except Err _) = .ok [[⟨none, some 40⟩, ⟨some 10, none⟩]] := by
    rw [List.mapM_cons]
    have : kdiv Rnd.exact (B 1) (ivRat (clsA 1 0)) (numFuncC ((![true, false] : Fin 2 → Bool) 1) (ivRat (clsA 1 0))) = _ := hk
    rw [this]
    rfl
  rw [hf, hm]
  dsimp only
  rw [hd, ht]
  dsimp only
  have hb := h0.2
  have ha := h0.1
  have i1 : ∀ l h : ℚ, l ≤ -50 → 50 ≤ h → interX Rnd.exact ⟨some l, some h⟩ (some (-100, 100)) = some (max (-100) l, min 100 h) := by
    intro l h hl hh
    have e1 : (⟨some l, some h⟩ : XIv ℚ).sup (-100) = max (-100) l := by
      simp only [XIv.sup]
      split_ifs with hc
      · exact (max_eq_right hc.le).symm
      · exact (max_eq_left (not_lt.1 hc)).symm
    have e2 : (⟨some l, some h⟩ : XIv ℚ).inf 100 = min 100 h := by
      simp only [XIv.inf]
      split_ifs with hc
      · exact (min_eq_left hc.le).symm
      · exact (min_eq_right (not_lt.1 hc)).symm
    have e3 : max (-100) l ≤ -50 := max_le (by norm_num) hl
    have e4 : 50 ≤ min 100 h := le_min (by norm_num) hh
    exact interX_val e1 e2 (by linarith)
  have i2 : ∀ l h : ℚ, l ≤ -50 → 50 ≤ h → interX Rnd.exact ⟨none, some 40⟩ (some (l, h)) = some (l, 40) := by
    intro l h hl hh
    exact interX_val rfl (by simp only [XIv.inf]; rw [if_neg (by linarith)]) (by linarith)
  have i3 : ∀ l h : ℚ, l ≤ -50 → 50 ≤ h → interX Rnd.exact ⟨some 10, none⟩ (some (l, h)) = some (10, h) := by
    intro l h hl hh
    exact interX_val (by simp only [XIv.sup]; rw [if_pos (by linarith)]) rfl (by linarith)
  have m1 : max (-100) (-50 - (Q 0).b) ≤ -50 := max_le (by norm_num) (by linarith)
  have m2 : 50 ≤ min 100 (50 - (Q 0).a) := le_min (by norm_num) (by linarith)
  have e1 : interR Rnd.exact [some ((clsX 0).a, (clsX 0).b)] [⟨some (-50 - (Q 0).b), some (50 - (Q 0).a)⟩] =
      [some (max (-100) (-50 - (Q 0).b), min 100 (50 - (Q 0).a))] := by
    show [interX Rnd.exact _ (some (-100, 100))] = _
    rw [i1 _ _ (by linarith) (by linarith)]
  simp only [List.foldl_nil, List.foldl_cons]
  rw [e1]
  have e2 : interR Rnd.exact [some (max (-100) (-50 - (Q 0).b), min 100 (50 - (Q 0).a))]
      [(⟨none, some 40⟩ : XIv ℚ), ⟨some 10, none⟩] = [some (max (-100) (-50 - (Q 0).b), 40), some (10, min 100 (50 - (Q 0).a))] := by
    show [interX Rnd.exact _ _, interX Rnd.exact _ _] = _
    rw [i2 _ _ m1 m2, i3 _ _ m1 m2]
  rw [e2]
  simp only [omegaVal, nanMin, if_true, List.all_cons, List.all_nil, List.any_cons, List.any_nil, Option.isNone_some,
    Bool.false_and, Bool.or_false, Bool.false_eq_true, if_false, List.filterMap_cons, id, List.filterMap_nil, List.foldl_cons,
    List.foldl_nil]
  rw [min_eq_left (by linarith)]

/-- A box of the list that contains zero with a bound of at most -50, or an upper limit of at most -50. -/
def ClsInv (omega : ℚ) (L : List (PssEl ℚ 1)) : Prop :=
  omega ≤ -50 ∨ ∃ e ∈ L, (0 : ℚ) ∈ e.Q 0 ∧ e.q ≤ -50

theorem cls_cl : objCls Rnd.exact clsA 0 = ![true, false] := by
  funext i
  fin_cases i <;> decide +kernel

/-- The half around zero is put in the list with a bound of at most -50. -/
theorem cls_half (lp : LpSolver ℚ (PssRow 2 1) (Fin 2)) (tol omega : ℚ) (L L' : List (PssEl ℚ 1)) (Q : Fin 1 → Iv ℚ)
    (eta : Option ℚ) (hQ : Ordinary (Q 0)) (h0 : (0 : ℚ) ∈ Q 0)
    (h : pssHalfC (objCls Rnd.exact clsA) (clsP lp tol) omega L Q = .ok (L', eta)) : ClsInv omega L' := by
  obtain ⟨q, hq, ho⟩ := cls_omega Q hQ h0
  by_cases hw : omega ≤ -50
  · exact .inl hw
  have hz : ((List.finRange 1).any fun j => (Q j).containsNum 0) = true :=
    List.any_eq_true.2 ⟨0, List.mem_finRange 0, containsNum_iff.2 h0⟩
  unfold pssHalfC at h
  rw [if_pos hz] at h
  have ho' : omegaFnC (clsP lp tol).R (objCls Rnd.exact clsA (clsP lp tol).nu) ((clsP lp tol).V (clsP lp tol).nu)
      (pssRes (clsP lp tol).R (clsP lp tol).A (clsP lp tol).b (clsP lp tol).nu Q)
      (fun i => (clsP lp tol).A i (clsP lp tol).nu) = .ok (some q) := by
    have : objCls Rnd.exact clsA (clsP lp tol).nu = ![true, false] := cls_cl
    rw [this]
    exact ho
  rw [ho'] at h
  dsimp only at h
  rw [if_pos (by linarith)] at h
  split at h
  · cases h
  · injection h with h
    obtain ⟨rfl, -⟩ := Prod.mk.inj h
    exact .inr ⟨_, (mem_pssInsert _ _ _).2 (.inl rfl), h0, hq⟩

theorem ClsInv.mono {omega : ℚ} {L L' : List (PssEl ℚ 1)} (h : ClsInv omega L) (hs : ∀ e ∈ L, e ∈ L') : ClsInv omega L' := by
  rcases h with h | ⟨e, he, h⟩
  · exact .inl h
  · exact .inr ⟨e, hs e he, h⟩

theorem ClsInv.head {omega : ℚ} {L : List (PssEl ℚ 1)} (h : ClsInv omega L) (hsort : SortedQ L) (hle : ∀ e ∈ L, e.q ≤ omega)
    (r : ℚ) (hr : pssHead L = .ok r) : r ≤ -50 := by
  cases L with
  | nil => cases hr
  | cons a t =>
    injection hr with hr
    rcases h with h | ⟨e, he, -, hq⟩
    · exact hr ▸ (hle a List.mem_cons_self).trans h
    · rcases List.mem_cons.1 he with rfl | he
      · exact hr ▸ hq
      · exact hr ▸ ((List.pairwise_cons.1 hsort).1 e he).trans hq

theorem ClsInv.prune {omega : ℚ} {L : List (PssEl ℚ 1)} (h : ClsInv omega L) (eta : Option ℚ) :
    ClsInv (pssPrune omega L eta).1 (pssPrune omega L eta).2 := by
  cases eta with
  | none => exact h
  | some t =>
    simp only [pssPrune]
    split_ifs with ht
    · rcases h with h | ⟨e, he, h0, hq⟩
      · exact .inl (ht.le.trans h)
      · by_cases hc : e.q ≤ t
        · exact .inr ⟨e, List.mem_filter.2 ⟨he, by simpa using hc⟩, h0, hq⟩
        · exact .inl ((not_le.1 hc).le.trans hq)
    · exact h

/-- The loop returns at most -50, however many passes are made. -/
theorem cls_loop (lp : LpSolver ℚ (PssRow 2 1) (Fin 2)) (h1 : LpOK lp) (h2 : LpComplete lp) (tol : ℚ) (fuel : ℕ) :
    ∀ (omega : ℚ) (L : List (PssEl ℚ 1)) (item : ℕ) (Q : Fin 1 → Iv ℚ) (e : PssEl ℚ 1), L[item]? = some e → e.Q = Q →
      SortedQ L → (∀ e ∈ L, e.q ≤ omega) → (∀ e ∈ L, ∀ j, Ordinary (e.Q j)) → ClsInv omega L →
      ∀ r, pssLoopC (objCls Rnd.exact clsA) (clsP lp tol) fuel omega L item Q = .ok r → r ≤ -50 := by
  have hP := clsP_ok lp h1 h2 tol
  induction fuel with
  | zero => intro omega L item Q e _ _ hsort hle _ hinv r h; exact hinv.head hsort hle r h
  | succ fuel ih =>
    intro omega L item Q e hitem heQ hsort hle hord hinv r h
    unfold pssLoopC at h
    split at h
    · cases h
    · next k hk =>
      split_ifs at h with htol
      · dsimp only at h
        have hsub : ∀ f ∈ L.eraseIdx item, f ∈ L := fun f hf => (L.eraseIdx_sublist item).subset hf
        have hQo : ∀ j, Ordinary (Q j) := by
          rw [← heQ]
          exact hord e (List.mem_of_getElem? hitem)
        obtain ⟨ho1, ho2⟩ := pssSplit_ordinary hP.nr Q k hQo
        split at h
        · cases h
        · next L1 eta1 g1 =>
          obtain ⟨s1, l1, o1, k1, -⟩ := pssHalfC_spec one_pos _ _ hP omega _ L1 _ eta1 (hsort.sublist (L.eraseIdx_sublist item))
            (fun f hf => hle f (hsub f hf)) (fun f hf => hord f (hsub f hf)) ho1 g1
          split at h
          · cases h
          · next L2 eta2 g2 =>
            obtain ⟨s2, l2, o2, k2, -⟩ := pssHalfC_spec one_pos _ _ hP omega L1 L2 _ eta2 s1 l1 o1 ho2 g2
            have hc : ClsInv omega L2 := by
              rcases hinv with hw | ⟨f, hf, hf0, hfq⟩
              · exact .inl hw
              · by_cases hfe : f ∈ L.eraseIdx item
                · exact .inr ⟨f, k2 f (k1 f hfe), hf0, hfq⟩
                · have hfeq : f = e := by
                    obtain ⟨i, hi⟩ := List.mem_iff_getElem?.1 hf
                    by_cases hii : i = item
                    · rw [hii, hitem] at hi
                      injection hi with hi
                      exact hi.symm
                    · exact absurd (List.mem_eraseIdx_iff_getElem?.2 ⟨i, hii, hi⟩) hfe
                  rw [hfeq, heQ] at hf0
                  rcases pssSplit_covers (clsP lp tol).R Q k (fun _ => 0)
                    (fun j => by rw [Fin.fin_one_eq_zero j]; exact hf0) with hy | hy
                  · exact (cls_half lp tol omega _ L1 _ eta1 (ho1 0) (hy 0) g1).mono k2
                  · exact cls_half lp tol omega _ L2 _ eta2 (ho2 0) (hy 0) g2
            obtain ⟨s3, l3, u3, -⟩ := pssPrune_spec (clsP lp tol) omega L2 (etaMin eta1 eta2) s2 l2
            have hc3 := hc.prune (etaMin eta1 eta2)
            split at h
            · exact hc3.head s3 l3 r h
            · next item' hi =>
              split at h
              · exact hc3.head s3 l3 r h
              · next l hl => exact ih _ _ item' l.Q l hl rfl s3 l3 (fun f hf => o2 f (u3 f hf)) hc3 r h
      · exact hinv.head hsort hle r h

/-- C158, however long it runs: with the integers the lower bound returned for the first component is at most -50,
whatever the tolerance and the number of passes; the least value of the component over all solutions is 10. -/
theorem C158_never_sharp (lp : LpSolver ℚ (PssRow 2 1) (Fin 2)) (h1 : LpOK lp) (h2 : LpComplete lp) (tol : ℚ) (maxiter : ℤ)
    (X : List (Iv ℚ)) (h : pssObj Rnd.exact lp (startGiven clsX) tol maxiter clsA clsb (some 0) = .ok X) :
    (∃ I, X = [I] ∧ I.a ≤ -50) ∧ ∀ x, United (fun i j => ivRat (clsA i j)) clsb x → 10 ≤ x 0 := by
  have hb1 : (fun i => (clsb i).rmul Rnd.exact 1) = clsb := by
    funext i
    fin_cases i <;> decide +kernel
  refine ⟨?_, fun x hx => ?_⟩
  · unfold pssObj at h
    split at h
    · cases h
    · unfold pssC at h
      dsimp only at h
      rw [hb1] at h
      split at h
      · cases h
      · next inf hinf =>
        split at h
        · cases h
        · next sup hsup =>
          injection h with h
          simp only [pssNus, pssAllC] at hinf hsup
          split at hinf
          · cases hinf
          · next l hl =>
            split at hsup
            · cases hsup
            · next u hu =>
              cases hinf
              cases hsup
              refine ⟨_, h.symm, ?_⟩
              have hl' : pssAlgoC (objCls Rnd.exact clsA) (clsP lp tol) maxiter = .ok l := hl
              unfold pssAlgoC at hl'
              rw [if_neg one_ne_zero] at hl'
              dsimp only at hl'
              have := cls_loop lp h1 h2 tol _ _ _ 0 _ _ rfl rfl (List.pairwise_singleton _ _)
                (by
                  intro e he
                  rw [List.mem_singleton.1 he]
                  norm_num [clsP, clsX])
                (by
                  intro e he j
                  rw [List.mem_singleton.1 he]
                  exact (clsP_ok lp h1 h2 tol).V ((clsP lp tol).nu.succAbove j))
                (.inr ⟨_, List.mem_singleton.2 rfl, by norm_num [clsP, clsX, Iv.mem_def], by norm_num [clsP, clsX]⟩) l hl'
              dsimp only [mkIv]
              split_ifs <;> exact this
  · obtain ⟨A', hA', b', hb', he⟩ := hx
    have e1 := he 1
    have a10 := hA' 1 0
    have a11 := hA' 1 1
    have b1 := hb' 1
    simp only [apply, Fin.sum_univ_two] at e1
    simp [clsA, clsb, ivRat, numRat, Iv.mem_def] at a10 a11 b1
    have h11 : A' 1 1 = 0 := le_antisymm a11.2 a11.1
    have hb1 : b' 1 = 20 := le_antisymm b1.2 b1.1
    rw [h11, hb1] at e1
    have hx0 : 0 < x 0 := by
      by_contra hn
      nlinarith [a10.1, not_lt.1 hn]
    nlinarith [a10.2]

/-- The hypothesis of `C158_never_sharp` holds after one pass. -/
example : (match pssObj Rnd.exact (pssLpEx 2 1) (startGiven clsX) (1 / 10 ^ 12) 0 clsA clsb (some 0) with
    | .ok _ => true
    | .error _ => false) = true := by decide +kernel

end IntvalPy
