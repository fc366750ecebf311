import Verif.PropsPreproc
import Mathlib.Data.Finset.Max
import Mathlib.Data.List.Basic

/-!
# Boundary intervals (C50)
-/

set_option autoImplicit false
set_option linter.unusedSectionVars false

namespace IntvalPy

open Spec

variable {K : Type*} [Field K] [LinearOrder K] [FloorRing K] [IsStrictOrderedRing K]

/-- `x` satisfies every inequality of a plane system. -/
def Sat2 (S : List (Ineq2 K)) (x : K × K) : Prop := ∀ r ∈ S, r.2 ≤ dot2 r.1 x

/-- `x` lies on the boundary line of row `i` and satisfies all the other rows. -/
def OnEdge (S : List (Ineq2 K)) (i : Nat) (x : K × K) : Prop :=
  (∀ r, S[i]? = some r → dot2 r.1 x = r.2) ∧ ∀ k s, k ≠ i → S[k]? = some s → s.2 ≤ dot2 s.1 x

/-- The point with parameter `t` on the boundary line of `r`. -/
def linePt (r : Ineq2 K) (t : K) : K × K := ((foot r).1 + (dirOf r).1 * t, (foot r).2 + (dirOf r).2 * t)

/-- `lo ≤ t ≤ hi`, where `none` stands for an infinite bound. -/
def InRange (lo hi : Option K) (t : K) : Prop := (∀ l, lo = some l → l ≤ t) ∧ ∀ h, hi = some h → t ≤ h

theorem dot2_linePt (a : K × K) (r : Ineq2 K) (t : K) :
    dot2 a (linePt r t) = dot2 a (foot r) + dot2 a (dirOf r) * t := by
  unfold dot2 linePt; ring

theorem dot2_foot (r : Ineq2 K) (h : dot2 r.1 r.1 ≠ 0) : dot2 r.1 (foot r) = r.2 := by
  unfold foot
  have : dot2 r.1 (r.1.1 * r.2 / dot2 r.1 r.1, r.1.2 * r.2 / dot2 r.1 r.1)
      = dot2 r.1 r.1 * r.2 / dot2 r.1 r.1 := by
    simp only [dot2]; ring
  rw [this, mul_div_assoc, mul_div_cancel₀]
  exact h

theorem dot2_dirOf (r : Ineq2 K) : dot2 r.1 (dirOf r) = 0 := by
  unfold dot2 dirOf; ring

/-- The boundary line is parametrised by `linePt`. -/
theorem onLine_iff (r : Ineq2 K) (h : dot2 r.1 r.1 ≠ 0) (x : K × K) :
    dot2 r.1 x = r.2 ↔ ∃ t, x = linePt r t := by
  constructor
  · intro hx
    refine ⟨(r.1.1 * x.2 - r.1.2 * x.1) / dot2 r.1 r.1, ?_⟩
    unfold linePt foot dirOf
    rw [← hx]
    refine Prod.ext ?_ ?_
    · dsimp only
      rw [mul_div_assoc', ← add_div, eq_div_iff h]
      unfold dot2; ring
    · dsimp only
      rw [mul_div_assoc', ← add_div, eq_div_iff h]
      unfold dot2; ring
  · rintro ⟨t, rfl⟩
    rw [dot2_linePt, dot2_foot r h, dot2_dirOf, zero_mul, add_zero]

/-- What the inner loop computes. -/
theorem biScan_spec (ai dotx p : K × K) (i : Nat) (L : List (Nat × Ineq2 K)) (lo hi : Option K) :
    (∀ lo' hi', biScan ai dotx p i L lo hi = .span lo' hi' → ∀ t, InRange lo' hi' t ↔
      InRange lo hi t ∧ ∀ k s, (k, s) ∈ L → k ≠ i → s.2 ≤ dot2 s.1 dotx + dot2 s.1 p * t) ∧
    (biScan ai dotx p i L lo hi = .skip → ∃ k s, (k, s) ∈ L ∧ k ≠ i ∧ dot2 s.1 p = 0 ∧
      dot2 s.1 dotx < s.2) ∧
    (biScan ai dotx p i L lo hi = .inconsistent → ∃ k s, (k, s) ∈ L ∧ k ≠ i ∧ dot2 s.1 p = 0 ∧
      dot2 s.1 dotx < s.2 ∧ dot2 s.1 ai ≤ 0) := by
  induction L generalizing lo hi with
  | nil =>
      refine ⟨fun lo' hi' h t => ?_, fun h => (by cases h), fun h => by cases h⟩
      unfold biScan at h
      injection h with h1 h2
      subst h1 h2
      simp
  | cons r L ih =>
      obtain ⟨k, ak, bk⟩ := r
      have lift : ∀ {P : Nat → Ineq2 K → Prop}, (∃ k s, (k, s) ∈ L ∧ P k s) →
          ∃ k' s, (k', s) ∈ (k, ak, bk) :: L ∧ P k' s := fun ⟨k', s, h, hp⟩ =>
        ⟨k', s, List.mem_cons_of_mem _ h, hp⟩
      unfold biScan
      by_cases hk : k = i
      · rw [if_pos hk]
        obtain ⟨h1, h2, h3⟩ := ih lo hi
        refine ⟨fun lo' hi' h t => ?_, fun h => lift (h2 h), fun h => lift (h3 h)⟩
        rw [h1 lo' hi' h t]
        simp only [List.mem_cons, Prod.mk.injEq]
        refine and_congr_right fun _ => ⟨fun h k' s hm hne => ?_, fun h k' s hm hne => h k' s (Or.inr hm) hne⟩
        rcases hm with hm | hm
        · exact absurd (hm.1.trans hk) hne
        · exact h k' s hm hne
      · rw [if_neg hk]
        dsimp only
        -- the condition added by this row
        have add : ∀ (lo1 hi1 : Option K),
            (∀ t, InRange lo1 hi1 t ↔ InRange lo hi t ∧ bk ≤ dot2 ak dotx + dot2 ak p * t) →
            ∀ lo' hi', biScan ai dotx p i L lo1 hi1 = .span lo' hi' → ∀ t, InRange lo' hi' t ↔
              InRange lo hi t ∧ ∀ k' s, (k', s) ∈ (k, ak, bk) :: L → k' ≠ i →
                s.2 ≤ dot2 s.1 dotx + dot2 s.1 p * t := by
          intro lo1 hi1 hR lo' hi' h t
          rw [(ih lo1 hi1).1 lo' hi' h t, hR t, and_assoc]
          refine and_congr_right fun _ => ?_
          simp only [List.mem_cons, Prod.mk.injEq]
          constructor
          · rintro ⟨h1, h2⟩ k' s hm hne
            rcases hm with ⟨-, rfl⟩ | hm
            · exact h1
            · exact h2 k' s hm hne
          · intro h
            exact ⟨h k (ak, bk) (Or.inl ⟨rfl, rfl⟩) hk, fun k' s hm hne => h k' s (Or.inr hm) hne⟩
        by_cases hc : dot2 ak p < 0
        · rw [if_pos hc]
          refine ⟨add _ _ fun t => ?_, fun h => lift ((ih _ _).2.1 h), fun h => lift ((ih _ _).2.2 h)⟩
          have key : t ≤ (bk - dot2 ak dotx) / dot2 ak p ↔ bk ≤ dot2 ak dotx + dot2 ak p * t := by
            rw [le_div_iff_of_neg hc]
            constructor <;> intro h <;> linarith [mul_comm t (dot2 ak p)]
          unfold InRange
          rw [← key]
          cases hi with
          | none => simp
          | some h0 =>
              simp only [Option.some.injEq, forall_eq', and_assoc]
              refine and_congr_right fun _ => ?_
              split_ifs with hle
              · exact ⟨fun h => ⟨h, h.trans hle⟩, fun h => h.1⟩
              · exact ⟨fun h => ⟨h.trans (not_le.1 hle).le, h⟩, fun h => h.2⟩
        · rw [if_neg hc]
          by_cases hc' : 0 < dot2 ak p
          · rw [if_pos hc']
            refine ⟨add _ _ fun t => ?_, fun h => lift ((ih _ _).2.1 h), fun h => lift ((ih _ _).2.2 h)⟩
            have key : (bk - dot2 ak dotx) / dot2 ak p ≤ t ↔ bk ≤ dot2 ak dotx + dot2 ak p * t := by
              rw [div_le_iff₀ hc']
              constructor <;> intro h <;> linarith [mul_comm t (dot2 ak p)]
            unfold InRange
            rw [← key]
            cases lo with
            | none => simp [and_comm]
            | some l0 =>
                simp only [Option.some.injEq, forall_eq']
                split_ifs with hle
                · exact ⟨fun h => ⟨h, hle.le.trans h.1⟩, fun h => h.1⟩
                · exact ⟨fun h => ⟨⟨(not_lt.1 hle).trans h.1, h.2⟩, h.1⟩, fun h => ⟨h.2, h.1.2⟩⟩
          · rw [if_neg hc']
            have hz : dot2 ak p = 0 := le_antisymm (not_lt.1 hc') (not_lt.1 hc)
            by_cases hb : dot2 ak dotx < bk
            · rw [if_pos hb]
              by_cases hd : 0 < dot2 ak ai
              · rw [if_pos hd]
                exact ⟨fun _ _ h => (by cases h), fun _ => ⟨k, (ak, bk), List.mem_cons_self, hk, hz, hb⟩,
                  fun h => by cases h⟩
              · rw [if_neg hd]
                exact ⟨fun _ _ h => (by cases h), fun h => (by cases h),
                  fun _ => ⟨k, (ak, bk), List.mem_cons_self, hk, hz, hb, not_lt.1 hd⟩⟩
            · rw [if_neg hb]
              refine ⟨add _ _ fun t => ?_, fun h => lift ((ih _ _).2.1 h), fun h => lift ((ih _ _).2.2 h)⟩
              rw [hz, zero_mul, add_zero]
              exact ⟨fun h => ⟨h, not_lt.1 hb⟩, fun h => h.1⟩

theorem mem_numbered {α : Type*} (S : List α) (k : Nat) (s : α) : (k, s) ∈ numbered S ↔ S[k]? = some s := by
  unfold numbered
  simp [List.mem_zipIdx_iff_getElem?]

/-- No edge on row `i` when the scan says so. -/
theorem no_edge_of_skip {S : List (Ineq2 K)} {i : Nat} {r : Ineq2 K} (hr : S[i]? = some r)
    (hN : dot2 r.1 r.1 ≠ 0)
    (h : ∃ k s, (k, s) ∈ numbered S ∧ k ≠ i ∧ dot2 s.1 (dirOf r) = 0 ∧ dot2 s.1 (foot r) < s.2)
    (x : K × K) : ¬ OnEdge S i x := by
  rintro ⟨h1, h2⟩
  obtain ⟨k, s, hm, hk, hz, hb⟩ := h
  obtain ⟨t, rfl⟩ := (onLine_iff r hN x).1 (h1 r hr)
  have := h2 k s hk ((mem_numbered S k s).1 hm)
  rw [dot2_linePt, hz, zero_mul, add_zero] at this
  exact absurd this (not_le.2 hb)

/-- The system has no solution when the scan of a row reports an inconsistency. -/
theorem no_solution_of_inconsistent {S : List (Ineq2 K)} {i : Nat} {r : Ineq2 K} (hr : S[i]? = some r)
    (hN : dot2 r.1 r.1 ≠ 0)
    (h : ∃ k s, (k, s) ∈ numbered S ∧ k ≠ i ∧ dot2 s.1 (dirOf r) = 0 ∧ dot2 s.1 (foot r) < s.2 ∧
      dot2 s.1 r.1 ≤ 0) (x : K × K) : ¬ Sat2 S x := by
  intro hx
  obtain ⟨k, s, hm, hk, hz, hb, hd⟩ := h
  have hxr := hx r (List.mem_of_getElem? hr)
  have hxs := hx s (List.mem_of_getElem? ((mem_numbered S k s).1 hm))
  have hNp : 0 < dot2 r.1 r.1 :=
    lt_of_le_of_ne (add_nonneg (mul_self_nonneg _) (mul_self_nonneg _)) hN.symm
  have e1 : dot2 r.1 r.1 * dot2 s.1 x = dot2 s.1 r.1 * dot2 r.1 x +
      dot2 s.1 (dirOf r) * dot2 (dirOf r) x := by unfold dot2 dirOf; ring
  have e2 : dot2 r.1 r.1 * dot2 s.1 (foot r) = dot2 s.1 r.1 * r.2 := by
    have : dot2 s.1 (foot r) = dot2 s.1 r.1 * r.2 / dot2 r.1 r.1 := by
      simp only [foot, dot2]; ring
    rw [this, mul_div_cancel₀]
    exact hN
  rw [hz, zero_mul, add_zero] at e1
  have h3 : dot2 s.1 r.1 * dot2 r.1 x ≤ dot2 s.1 r.1 * r.2 := mul_le_mul_of_nonpos_left hxr hd
  have h4 : dot2 r.1 r.1 * dot2 s.1 x ≤ dot2 r.1 r.1 * dot2 s.1 (foot r) := by rw [e1, e2]; exact h3
  exact absurd (le_of_mul_le_mul_left h4 hNp) (not_le.2 (hb.trans_le hxs))

theorem qBad_iff (lo hi : Option K) : qBad lo hi = false ↔ ∃ t, InRange lo hi t := by
  unfold InRange
  cases lo with
  | none => cases hi with
    | none => simp [qBad]
    | some h => simpa [qBad] using ⟨h, le_rfl⟩
  | some l => cases hi with
    | none => simpa [qBad] using ⟨l, le_rfl⟩
    | some h =>
        simp only [qBad, decide_eq_false_iff_not, not_lt, Option.some.injEq, forall_eq']
        exact ⟨fun hh => ⟨l, le_rfl, hh⟩, fun ⟨t, h1, h2⟩ => h1.trans h2⟩

/-- The edge computed for row `i` with endpoints `lo`, `hi` on the line of `r`. -/
def IsEdgeOf (eps : K) (S : List (Ineq2 K)) (e : Edge K) : Prop :=
  ∃ r lo hi, S[e.row]? = some r ∧ dot2 r.1 r.1 ≠ 0 ∧ e.start = lo.map (edgePt eps r) ∧
    e.stop = hi.map (edgePt eps r) ∧ (∃ t, InRange lo hi t) ∧
    ∀ x, OnEdge S e.row x ↔ ∃ t, InRange lo hi t ∧ x = linePt r t

theorem biScan_span {S : List (Ineq2 K)} {i : Nat} {r : Ineq2 K} (hr : S[i]? = some r)
    (hN : dot2 r.1 r.1 ≠ 0) {lo hi : Option K}
    (h : biScan r.1 (foot r) (dirOf r) i (numbered S) none none = .span lo hi) (x : K × K) :
    OnEdge S i x ↔ ∃ t, InRange lo hi t ∧ x = linePt r t := by
  have hs := (biScan_spec r.1 (foot r) (dirOf r) i (numbered S) none none).1 lo hi h
  constructor
  · rintro ⟨h1, h2⟩
    obtain ⟨t, rfl⟩ := (onLine_iff r hN x).1 (h1 r hr)
    refine ⟨t, (hs t).2 ⟨by simp [InRange], fun k s hm hk => ?_⟩, rfl⟩
    rw [← dot2_linePt]
    exact h2 k s hk ((mem_numbered S k s).1 hm)
  · rintro ⟨t, ht, rfl⟩
    refine ⟨fun r' hr' => ?_, fun k s hk hm => ?_⟩
    · rw [hr] at hr'
      injection hr' with hr'
      subst hr'
      exact (onLine_iff r hN _).2 ⟨t, rfl⟩
    · rw [dot2_linePt]
      exact ((hs t).1 ht).2 k s ((mem_numbered S k s).2 hm) hk

theorem biOuter_spec (eps : K) (S : List (Ineq2 K)) (L : List (Nat × Ineq2 K))
    (hL : ∀ k s, (k, s) ∈ L → S[k]? = some s) :
    (∀ E, biOuter eps (numbered S) L = .ok (some E) → (∀ e ∈ E, IsEdgeOf eps S e) ∧
      ∀ k s x, (k, s) ∈ L → OnEdge S k x → ∃ e ∈ E, e.row = k) ∧
    (biOuter eps (numbered S) L = .ok none → ∀ x, ¬ Sat2 S x) ∧
    ((∃ e, biOuter eps (numbered S) L = .error e) → ∃ k s, (k, s) ∈ L ∧ dot2 s.1 s.1 = 0) := by
  induction L with
  | nil =>
      refine ⟨fun E h => ?_, fun h => (by cases h), fun ⟨e, h⟩ => by cases h⟩
      injection h with h
      injection h with h
      subst h
      exact ⟨fun e he => (by cases he), fun k s x hm => by cases hm⟩
  | cons ir L ih =>
      obtain ⟨i, r⟩ := ir
      obtain ⟨ih1, ih2, ih3⟩ := ih fun k s hm => hL k s (List.mem_cons_of_mem _ hm)
      have hr := hL i r List.mem_cons_self
      unfold biOuter
      by_cases hN : dot2 r.1 r.1 = 0
      · rw [if_pos hN]
        exact ⟨fun E h => (by cases h), fun h => (by cases h), fun _ => ⟨i, r, List.mem_cons_self, hN⟩⟩
      · rw [if_neg hN]
        have hsp := biScan_spec r.1 (foot r) (dirOf r) i (numbered S) none none
        cases hsc : biScan r.1 (foot r) (dirOf r) i (numbered S) none none with
        | inconsistent =>
            dsimp only
            exact ⟨fun E h => (by cases h), fun _ => no_solution_of_inconsistent hr hN (hsp.2.2 hsc),
              fun ⟨e, h⟩ => by cases h⟩
        | skip =>
            dsimp only
            refine ⟨fun E h => ⟨(ih1 E h).1, fun k s x hm hx => ?_⟩, ih2, fun h => ?_⟩
            · rcases List.mem_cons.1 hm with hm | hm
              · injection hm with h1 h2
                subst h1 h2
                exact absurd hx (no_edge_of_skip hr hN (hsp.2.1 hsc) x)
              · exact (ih1 E h).2 k s x hm hx
            · obtain ⟨k, s, hm, hz⟩ := ih3 h
              exact ⟨k, s, List.mem_cons_of_mem _ hm, hz⟩
        | span lo hi =>
            dsimp only
            have hsc' := biScan_span hr hN hsc
            cases hb : biOuter eps (numbered S) L with
            | error e =>
                dsimp only
                refine ⟨fun E h => (by cases h), fun h => (by cases h), fun _ => ?_⟩
                obtain ⟨k, s, hm, hz⟩ := ih3 ⟨e, hb⟩
                exact ⟨k, s, List.mem_cons_of_mem _ hm, hz⟩
            | ok o =>
                cases o with
                | none =>
                    dsimp only
                    exact ⟨fun E h => (by cases h), fun _ => ih2 hb, fun ⟨e, h⟩ => by cases h⟩
                | some T =>
                    dsimp only
                    obtain ⟨c1, c2⟩ := ih1 T hb
                    cases hq : qBad lo hi with
                    | true =>
                        rw [if_pos rfl]
                        refine ⟨fun E h => ?_, fun h => (by cases h), fun ⟨e, h⟩ => by cases h⟩
                        injection h with h
                        injection h with h
                        subst h
                        refine ⟨c1, fun k s x hm hx => ?_⟩
                        rcases List.mem_cons.1 hm with hm | hm
                        · injection hm with h1 h2
                          subst h1 h2
                          obtain ⟨t, ht, -⟩ := (hsc' x).1 hx
                          have := (qBad_iff lo hi).2 ⟨t, ht⟩
                          rw [hq] at this
                          cases this
                        · exact c2 k s x hm hx
                    | false =>
                        rw [if_neg Bool.false_ne_true]
                        refine ⟨fun E h => ?_, fun h => (by cases h), fun ⟨e, h⟩ => by cases h⟩
                        injection h with h
                        injection h with h
                        subst h
                        refine ⟨fun e he => ?_, fun k s x hm hx => ?_⟩
                        · rcases List.mem_cons.1 he with rfl | he
                          · exact ⟨r, lo, hi, hr, hN, rfl, rfl, (qBad_iff lo hi).1 hq, hsc'⟩
                          · exact c1 e he
                        · rcases List.mem_cons.1 hm with hm | hm
                          · injection hm with h1 h2
                            subst h1 h2
                            exact ⟨_, List.mem_cons_self, rfl⟩
                          · obtain ⟨e, he, hrow⟩ := c2 k s x hm hx
                            exact ⟨e, List.mem_cons_of_mem _ he, hrow⟩

/-- C50 (edges): every edge returned for row `i` is, between its endpoints (possibly infinite), exactly the
set of points of the boundary line of row `i` that satisfy all the other rows, and every row with such a
point has an edge.  With `eps = 0` the endpoints written are the endpoints of this set (`C50_endpoints`). -/
theorem C50_edges (eps : K) (S : List (Ineq2 K)) (E : List (Edge K))
    (h : boundaryIntervals eps S = .ok (some E)) :
    (∀ e ∈ E, IsEdgeOf eps S e) ∧ ∀ i x, i < S.length → OnEdge S i x → ∃ e ∈ E, e.row = i := by
  obtain ⟨h1, h2⟩ := (biOuter_spec eps S (numbered S) fun k s => (mem_numbered S k s).1).1 E h
  exact ⟨h1, fun i x hi hx => h2 i S[i] x ((mem_numbered S i _).2 (List.getElem?_eq_getElem hi)) hx⟩

/-- The endpoints written differ from the true ones by `eps` times the parameter. -/
theorem C50_endpoints (eps : K) (r : Ineq2 K) (q : K) :
    edgePt eps r q = ((linePt r q).1 + eps * q, (linePt r q).2 + eps * q) ∧ edgePt 0 r q = linePt r q := by
  unfold edgePt linePt
  constructor <;> refine Prod.ext ?_ ?_ <;> dsimp only <;> ring

/-- C50: the early `return []` happens only for systems without solutions. -/
theorem C50_inconsistent (eps : K) (S : List (Ineq2 K)) (h : boundaryIntervals eps S = .ok none) :
    ∀ x, ¬ Sat2 S x :=
  (biOuter_spec eps S (numbered S) fun k s => (mem_numbered S k s).1).2.1 h

/-- C50: with no zero row the computation does not fail. -/
theorem C50_total (eps : K) (S : List (Ineq2 K)) (hS : ∀ r ∈ S, dot2 r.1 r.1 ≠ 0) :
    ∃ o, boundaryIntervals eps S = .ok o := by
  cases h : boundaryIntervals eps S with
  | ok o => exact ⟨o, rfl⟩
  | error e =>
      obtain ⟨k, s, hm, hz⟩ :=
        (biOuter_spec eps S (numbered S) fun k s => (mem_numbered S k s).1).2.2 ⟨e, h⟩
      exact absurd hz (hS s (List.mem_of_getElem? ((mem_numbered S k s).1 hm)))

/-- From a solution one can walk to a solution on the boundary of some row. -/
theorem exists_onEdge (S : List (Ineq2 K)) (hS : ∀ r ∈ S, dot2 r.1 r.1 ≠ 0) (hne : S ≠ []) (x : K × K)
    (hx : Sat2 S x) : ∃ i < S.length, ∃ y, OnEdge S i y ∧ Sat2 S y := by
  obtain ⟨r0, hr0⟩ := List.exists_mem_of_ne_nil S hne
  have hneg : dot2 r0.1 (-r0.1) < 0 := by
    have : dot2 r0.1 (-r0.1) = -dot2 r0.1 r0.1 := by simp only [dot2, Prod.fst_neg, Prod.snd_neg]; ring
    rw [this, neg_lt_zero]
    exact lt_of_le_of_ne (add_nonneg (mul_self_nonneg _) (mul_self_nonneg _)) (hS r0 hr0).symm
  classical
  let C := (S.filter fun r => decide (dot2 r.1 (-r0.1) < 0)).toFinset
  have hC : C.Nonempty := ⟨r0, by simp [C, hr0, hneg]⟩
  obtain ⟨s, hsC, hmin⟩ := C.exists_min_image (fun r => (r.2 - dot2 r.1 x) / dot2 r.1 (-r0.1)) hC
  have hs : s ∈ S ∧ dot2 s.1 (-r0.1) < 0 := by simpa [C] using hsC
  set t := (s.2 - dot2 s.1 x) / dot2 s.1 (-r0.1) with ht
  have ht0 : 0 ≤ t := div_nonneg_of_nonpos (sub_nonpos.2 (hx s hs.1)) hs.2.le
  let y : K × K := (x.1 + t * (-r0.1).1, x.2 + t * (-r0.1).2)
  have hy : ∀ a : K × K, dot2 a y = dot2 a x + t * dot2 a (-r0.1) := fun a => by
    simp only [y, dot2]; ring
  have hsy : dot2 s.1 y = s.2 := by
    rw [hy, ht, div_mul_cancel₀ _ hs.2.ne]; ring
  have hsat : Sat2 S y := by
    intro r hr
    rw [hy]
    by_cases hc : dot2 r.1 (-r0.1) < 0
    · have := hmin r (by simp [C, hr, hc])
      have h2 := (le_div_iff_of_neg hc).1 this
      linarith
    · have := mul_nonneg ht0 (not_lt.1 hc)
      have := hx r hr
      linarith
  obtain ⟨i, hi, he⟩ := List.getElem_of_mem hs.1
  refine ⟨i, hi, y, ⟨fun r hr => ?_, fun k r _ hr => hsat r (List.mem_of_getElem? hr)⟩, hsat⟩
  rw [List.getElem?_eq_getElem hi, he] at hr
  injection hr with hr
  rw [← hr, hsy]

/-- C50 (emptiness): for a system with at least one row and no zero rows, the result is empty if and only if
there is no solution. -/
theorem C50_empty_iff (eps : K) (S : List (Ineq2 K)) (hS : ∀ r ∈ S, dot2 r.1 r.1 ≠ 0) (hne : S ≠ []) :
    (boundaryIntervals eps S = .ok none ∨ boundaryIntervals eps S = .ok (some [])) ↔ ∀ x, ¬ Sat2 S x := by
  constructor
  · rintro (h | h)
    · exact C50_inconsistent eps S h
    · intro x hx
      obtain ⟨i, hi, y, hy, -⟩ := exists_onEdge S hS hne x hx
      obtain ⟨e, he, -⟩ := (C50_edges eps S [] h).2 i y hi hy
      cases he
  · intro h
    obtain ⟨o, ho⟩ := C50_total eps S hS
    cases o with
    | none => exact Or.inl ho
    | some E =>
        right
        cases E with
        | nil => exact ho
        | cons e E =>
            obtain ⟨r, lo, hi, hr, hN, -, -, ⟨t, ht⟩, hon⟩ := (C50_edges eps S _ ho).1 e List.mem_cons_self
            have hon := (hon (linePt r t)).2 ⟨t, ht, rfl⟩
            refine absurd (fun s hs => ?_) (h (linePt r t))
            obtain ⟨k, hk, rfl⟩ := List.getElem_of_mem hs
            by_cases hki : k = e.row
            · rw [hon.1 _ (hki ▸ List.getElem?_eq_getElem hk)]
            · exact hon.2 k _ hki (List.getElem?_eq_getElem hk)

/-- C50, full statement for `lineqs`: the answer is empty only if there is no solution. -/
def C50_lineqs_statement (eps : K) (S : List (Ineq2 K)) : Prop :=
  ∀ st, (lineqs eps S none st).1 = .ok [] → ∀ x, ¬ Sat2 S x

/-- C50: false for `lineqs` when no row is left after the zero rows have been removed: the system `0 ≥ -1`,
which every point satisfies, is answered with the empty list. -/
theorem C50_lineqs_false : ¬ C50_lineqs_statement (1 / 10 ^ 301 : ℚ) [((0, 0), -1)] := by
  intro h
  refine h [] ?_ (0, 0) ?_
  · have : boundaryIntervals (1 / 10 ^ 301 : ℚ) [] = .ok (some []) := rfl
    have hc : (clearZeroRows (d := 2) 2 ([((0, 0), -1)].map fun r : Ineq2 ℚ => (![r.1.1, r.1.2], r.2))).1 = [] := by
      decide +kernel
    unfold lineqs
    simp only [hc, List.map_nil, this]
  · intro r hr
    simp only [List.mem_singleton] at hr
    subst hr
    norm_num [dot2]

/-- Edges returned, for evaluation. -/
def edgesOf (r : Except Err (Option (List (Edge ℚ)))) : Option (List (Edge ℚ)) :=
  match r with
  | .ok o => o
  | .error _ => none

/-- The triangle `x, y ≥ 0`, `x + y ≤ 1` has three edges; the strip `0 ≤ x ≤ 1` two unbounded ones; for
`x ≥ 1`, `x ≤ 0` the early return is taken. -/
example : edgesOf (boundaryIntervals (0 : ℚ) [((1, 0), 0), ((0, 1), 0), ((-1, -1), -1)]) =
      some [⟨some (0, 0), some (0, 1), 0⟩, ⟨some (1, 0), some (0, 0), 1⟩, ⟨some (0, 1), some (1, 0), 2⟩] ∧
    edgesOf (boundaryIntervals (0 : ℚ) [((1, 0), 0), ((-1, 0), -1)]) = some [⟨none, none, 0⟩, ⟨none, none, 1⟩] ∧
    edgesOf (boundaryIntervals (0 : ℚ) [((1, 0), 1), ((-1, 0), 0)]) = none := by
  refine ⟨?_, ?_, ?_⟩ <;> decide +kernel

end IntvalPy
