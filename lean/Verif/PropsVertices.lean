import Verif.PropsPolygon

/-!
# All vertices of a plane set are returned (C81)
-/

set_option autoImplicit false
set_option linter.unusedSectionVars false

namespace IntvalPy

open Spec

variable {K : Type*} [Field K] [LinearOrder K] [FloorRing K] [IsStrictOrderedRing K]

/-! ## Sets without interior points -/

theorem mid_mem {S : List (Ineq2 K)} {x y : K × K} (hx : Sat2 S x) (hy : Sat2 S y) :
    Sat2 S ((x.1 + y.1) / 2, (x.2 + y.2) / 2) ∧ ∀ r ∈ S, (r.2 < dot2 r.1 x ∨ r.2 < dot2 r.1 y) →
      r.2 < dot2 r.1 ((x.1 + y.1) / 2, (x.2 + y.2) / 2) := by
  have e : ∀ a : K × K, dot2 a ((x.1 + y.1) / 2, (x.2 + y.2) / 2) = (dot2 a x + dot2 a y) / 2 := by
    intro a; simp only [dot2]; ring
  refine ⟨fun r hr => ?_, fun r hr h => ?_⟩
  · rw [e]
    have := hx r hr
    have := hy r hr
    linarith
  · rw [e]
    have := hx r hr
    have := hy r hr
    rcases h with h | h <;> linarith

/-- A nonempty set has an interior point or lies in the line of one of the rows. -/
theorem interior_or_line (S : List (Ineq2 K)) (x : K × K) (hx : Sat2 S x) :
    (∃ c, Interior S c) ∨ ∃ r ∈ S, ∀ y, Sat2 S y → dot2 r.1 y = r.2 := by
  by_cases h : ∃ r ∈ S, ∀ y, Sat2 S y → dot2 r.1 y = r.2
  · exact Or.inr h
  · left
    push Not at h
    have main : ∀ T : List (Ineq2 K), (∀ r ∈ T, r ∈ S) → ∃ c, Sat2 S c ∧ ∀ r ∈ T, r.2 < dot2 r.1 c := by
      intro T
      induction T with
      | nil => exact fun _ => ⟨x, hx, fun r hr => by cases hr⟩
      | cons r T ih =>
          intro hT
          obtain ⟨c, hc, hcT⟩ := ih fun r' hr' => hT r' (List.mem_cons_of_mem _ hr')
          obtain ⟨y, hy, hne⟩ := h r (hT r List.mem_cons_self)
          have hlt := lt_of_le_of_ne (hy r (hT r List.mem_cons_self)) (Ne.symm hne)
          obtain ⟨h1, h2⟩ := mid_mem hc hy
          refine ⟨_, h1, fun s hs => ?_⟩
          rcases List.mem_cons.1 hs with rfl | hs
          · exact h2 s (hT s List.mem_cons_self) (Or.inr hlt)
          · exact h2 s (hT s (List.mem_cons_of_mem _ hs)) (Or.inl (hcT s hs))
    obtain ⟨c, -, hc⟩ := main S fun _ h => h
    exact ⟨c, hc⟩

/-- If the set lies in the line of `r` and extends to both sides of `m`, some row has the opposite
direction. -/
theorem opposite_row {S : List (Ineq2 K)} {r : Ineq2 K} (hr : r ∈ S) (hN : dot2 r.1 r.1 ≠ 0)
    (hline : ∀ y, Sat2 S y → dot2 r.1 y = r.2) {m : K × K} {ε : K} (hε : 0 < ε)
    (h1 : Sat2 S (mv m (dirOf r) ε)) (h2 : Sat2 S (mv m (dirOf r) (-ε))) :
    ∃ k ∈ S, ∃ l, 0 < l ∧ k.1 = (-l * r.1.1, -l * r.1.2) ∧ dot2 k.1 m = k.2 := by
  have hNp : 0 < dot2 r.1 r.1 :=
    lt_of_le_of_ne (add_nonneg (mul_self_nonneg _) (mul_self_nonneg _)) hN.symm
  have hm : Sat2 S m := by
    have := (mid_mem h1 h2).1
    convert this using 1
    refine Prod.ext ?_ ?_ <;> simp only [mv] <;> ring
  have hpar : ∀ l ∈ S, dot2 l.1 m = l.2 → dot2 l.1 (dirOf r) = 0 := by
    intro l hl he
    have a := h1 l hl
    have b := h2 l hl
    rw [dot2_mv, he] at a b
    have : ε * dot2 l.1 (dirOf r) = 0 := by linarith
    exact (mul_eq_zero.1 this).resolve_left hε.ne'
  by_contra hno
  push Not at hno
  obtain ⟨δ, hδ, hst⟩ := small_move S m r.1 hm fun l hl he => by
    by_contra hneg
    have hz := hpar l hl he
    refine hno l hl (-(dot2 l.1 r.1 / dot2 r.1 r.1)) (neg_pos.2 (div_neg_of_neg_of_pos (not_le.1 hneg) hNp)) ?_ he
    refine Prod.ext ?_ ?_
    · simp only [neg_neg]
      rw [div_mul_eq_mul_div, eq_div_iff hN]
      simp only [dot2, dirOf] at hz ⊢
      linear_combination (-r.1.2) * hz
    · simp only [neg_neg]
      rw [div_mul_eq_mul_div, eq_div_iff hN]
      simp only [dot2, dirOf] at hz ⊢
      linear_combination r.1.1 * hz
  have := hline _ (hst δ hδ.le le_rfl)
  rw [dot2_mv, hline m hm] at this
  have : δ * dot2 r.1 r.1 = 0 := by linarith
  exact (mul_pos hδ hNp).ne' this

/-- The path along segments that are all the same point. -/
theorem pathLoop_point (v : K × K) (fuel : Nat) (old : Nat) (S : List (Seg K)) (P : List (K × K))
    (hS : ∀ s ∈ S, s = (v, v)) (hlen : S.length ≤ fuel) (hold : old = 0) :
    pathLoop v fuel v old S P = .ok P := by
  induction fuel generalizing old S with
  | zero => rfl
  | succ fuel ih =>
      subst hold
      unfold pathLoop
      cases S with
      | nil => rfl
      | cons s S =>
          have hs := hS s List.mem_cons_self
          subst hs
          have hf : findStart v ((v, v) :: S) 0 = 0 := by
            unfold findStart
            rw [List.findIdx?_cons]
            simp only [maxDist_self, small_pos, decide_true, if_true]
          rw [if_neg (by simp)]
          dsimp only
          rw [hf]
          simp only [List.getElem?_cons_zero, maxDist_self]
          rw [if_neg (not_lt.2 small_pos.le)]
          exact ih 0 S (fun s hs => hS s (List.mem_cons_of_mem _ hs)) (Nat.le_of_succ_le_succ hlen) rfl

/-- The core of C81 for a nonempty bounded set: the edges are joined to the list of all vertices in order. -/
theorem convex_finish {S : List (Ineq2 K)} (hS : ∀ r ∈ S, dot2 r.1 r.1 ≠ 0) (hne : S ≠ []) {c : K × K}
    (hsat : Sat2 S c) (hb : BoundedSet (Sat2 S)) (hsep : Separated (Sat2 S)) :
    ∃ E, boundaryIntervals 0 S = .ok (some E) ∧ E ≠ [] ∧ (∀ e ∈ E, e.start.isSome) ∧
      ∃ C, VertexList (Sat2 S) C ∧ lineqsFinish (some E) = .ok (C.map round12) ∧
        ∃ segs, segsOf E = some segs ∧ intervals2Path segs = .ok (closePath C) := by
  rcases interior_or_line S c hsat with ⟨c', hc'⟩ | ⟨r, hr, hline⟩
  · exact polygon_finish hS hne hc' hb hsep
  obtain ⟨o, ho⟩ := C50_total 0 S hS
  have hempty := C50_empty_iff 0 S hS hne
  cases o with
  | none => exact absurd hsat (hempty.1 (Or.inl ho) c)
  | some E =>
      have hE : E ≠ [] := by
        rintro rfl
        exact hempty.1 (Or.inr ho) c hsat
      obtain ⟨hE1, hE2⟩ := C50_edges 0 S E ho
      have hends : ∀ e ∈ E, ∃ u v, e.start = some u ∧ e.stop = some v := fun e he => bounded_ends hb (hE1 e he)
      obtain ⟨segs, hseg, hlen, hm⟩ := segsOf_some hends
      have hg : ∀ s ∈ segs, ∃ r, GEdge S r s.1 s.2 := by
        intro s hs
        obtain ⟨e, he, h1, h2⟩ := segsOf_mem E segs hseg s hs
        obtain ⟨r, -, h3⟩ := edge_gedge (hE1 e he) h1 h2
        exact ⟨r, h3⟩
      have hrow : ∀ k ∈ S, ∀ y, Sat2 S y → dot2 k.1 y = k.2 → ∃ u v, (u, v) ∈ segs ∧ GEdge S k u v := by
        intro k hk y hy hky
        obtain ⟨i, hi, hik⟩ := List.getElem_of_mem hk
        have hik' : S[i]? = some k := by rw [List.getElem?_eq_getElem hi, hik]
        obtain ⟨e, he, hrow⟩ := hE2 i y hi ⟨fun r' hr' => by
          rw [hik'] at hr'; injection hr' with hr'; subst hr'; exact hky,
          fun j t _ ht => hy t (List.mem_of_getElem? ht)⟩
        obtain ⟨u, v, hu, hv⟩ := hends e he
        obtain ⟨r', hr', hge⟩ := edge_gedge (hE1 e he) hu hv
        rw [hrow, hik'] at hr'
        injection hr' with hr'
        subst hr'
        exact ⟨u, v, hm e he u v hu hv, hge⟩
      obtain ⟨u, v, huv, hge⟩ := hrow r hr c hsat (hline c hsat)
      obtain ⟨τ, hτ, hv⟩ := hge.ends
      -- every solution lies between `u` and `v`
      have hall : ∀ y, Sat2 S y → ∃ t, 0 ≤ t ∧ t ≤ τ ∧ y = mv u (dirOf r) t := by
        intro y hy
        obtain ⟨t, ht⟩ := line_mv hge.nz hge.on (hline y hy)
        refine ⟨t, hge.lo t (ht ▸ hy), ?_, ht⟩
        have : y = mv v (dirOf r) (t - τ) := by rw [hv, mv_mv, ht]; congr 1; ring
        linarith [hge.hi (t - τ) (this ▸ hy)]
      have hext : ∀ y, Extreme (Sat2 S) y ↔ y = u ∨ y = v := by
        intro y
        constructor
        · intro hy
          obtain ⟨t, h0, h1, ht⟩ := hall y hy.1
          by_contra hcon
          push Not at hcon
          have ht0 : 0 < t := lt_of_le_of_ne h0 fun h => hcon.1 (by rw [ht, ← h, mv_zero])
          have ht1 : t < τ := lt_of_le_of_ne h1 fun h => hcon.2 (by rw [ht, h, hv])
          have seg : ∀ q, 0 ≤ q → q ≤ τ → Sat2 S (mv u (dirOf r) q) := by
            intro q hq0 hq1 s hs
            have a := hge.satu s hs
            have b := hge.satv s hs
            rw [hv, dot2_mv] at b
            rw [dot2_mv]
            rcases le_total 0 (dot2 s.1 (dirOf r)) with hd | hd
            · have := mul_nonneg hq0 hd; linarith
            · have := mul_le_mul_of_nonpos_right hq1 hd; linarith
          have hd : 0 < min t (τ - t) := lt_min ht0 (by linarith)
          have hl := min_le_left t (τ - t)
          have hr' := min_le_right t (τ - t)
          have := hy.2 (mv u (dirOf r) (t - min t (τ - t))) (mv u (dirOf r) (t + min t (τ - t)))
            (seg _ (by linarith) (by linarith)) (seg _ (by linarith) (by linarith))
            (by rw [ht]; simp only [mv]; ring) (by rw [ht]; simp only [mv]; ring)
          have h5 : mv y (dirOf r) (-min t (τ - t)) = y := by
            conv_lhs => rw [ht, mv_mv, ← sub_eq_add_neg]
            exact this
          exact mv_ne hge.nz y (neg_ne_zero.2 hd.ne') h5
        · rintro (rfl | rfl)
          · exact hge.extreme_start
          · exact hge.extreme_stop
      have hsegends : ∀ s ∈ segs, (s.1 = u ∨ s.1 = v) ∧ (s.2 = u ∨ s.2 = v) := by
        intro s hs
        obtain ⟨k, hk⟩ := hg s hs
        exact ⟨(hext _).1 hk.extreme_start, (hext _).1 hk.extreme_stop⟩
      have hstart : ∀ e ∈ E, e.start.isSome := fun e he => by
        obtain ⟨a, b, h1, -⟩ := hends e he
        rw [h1]; rfl
      cases hsegs : segs with
      | nil => rw [hsegs] at huv; cases huv
      | cons s0 rest =>
      by_cases hpt : u = v
      · -- a single point
        have hall' : ∀ s ∈ segs, s = (v, v) := by
          intro s hs
          obtain ⟨h1, h2⟩ := hsegends s hs
          rw [hpt, or_self] at h1 h2
          exact Prod.ext h1 h2
        have hs0 : s0 = (v, v) := hall' s0 (by rw [hsegs]; exact List.mem_cons_self)
        refine ⟨E, ho, hE, hstart, [v], ⟨List.nodup_singleton _, fun y => ?_, fun h => absurd rfl h⟩, ?_,
          _, hseg, ?_⟩
        · rw [hext, hpt, or_self, List.mem_singleton]
        swap
        · rw [hsegs]
          dsimp only [intervals2Path]
          subst hs0
          rw [pathLoop_point v _ 0 ((v, v) :: rest) [v] (hsegs ▸ hall') le_rfl rfl]
          rfl
        · unfold lineqsFinish
          dsimp only
          rw [hseg, hsegs]
          dsimp only [intervals2Path]
          subst hs0
          rw [pathLoop_point v _ 0 ((v, v) :: rest) [v] (hsegs ▸ hall') le_rfl rfl]
          rfl
      · -- a segment
        have hτp : 0 < τ := lt_of_le_of_ne hτ fun h => hpt (by rw [hv, ← h, mv_zero])
        obtain ⟨k, hk, l, hl, hkr, hkm⟩ := opposite_row (m := mv u (dirOf r) (τ / 2)) (ε := τ / 2) hr hge.nz hline
          (by linarith) (by rw [mv_mv, add_halves, ← hv]; exact hge.satv)
          (by rw [mv_mv, add_neg_cancel, mv_zero]; exact hge.satu)
        have hkdir : dirOf k = (-l * (dirOf r).1, -l * (dirOf r).2) := by
          refine Prod.ext ?_ ?_ <;> simp only [dirOf, hkr] <;> ring
        have hconv : ∀ w t, mv w (dirOf k) t = mv w (dirOf r) (-(l * t)) := by
          intro w t
          rw [hkdir]
          refine Prod.ext ?_ ?_ <;> simp only [mv] <;> ring
        have hku : dot2 k.1 v = k.2 := by
          rw [← hkm, hv, dot2_mv, dot2_mv, hkr]
          simp only [dot2, dirOf]
          ring
        obtain ⟨u', v', huv', hge'⟩ := hrow k hk v hge.satv hku
        have hv' : v' = u := by
          have h1 : ∃ t, 0 ≤ t ∧ u = mv v' (dirOf k) t := by
            obtain ⟨t, h0, h1, ht⟩ := hall v' hge'.satv
            refine ⟨t / l, div_nonneg h0 hl.le, ?_⟩
            rw [hconv, mul_div_cancel₀ _ hl.ne', ht, mv_mv, add_neg_cancel, mv_zero]
          obtain ⟨t, h0, ht⟩ := h1
          have := hge'.hi t (ht ▸ hge.satu)
          rw [ht, le_antisymm this h0, mv_zero]
        have hu' : u' = v := by
          have h1 : ∃ t, t ≤ 0 ∧ v = mv u' (dirOf k) t := by
            obtain ⟨t, h0, h1, ht⟩ := hall u' hge'.satu
            refine ⟨-((τ - t) / l), neg_nonpos.2 (div_nonneg (sub_nonneg.2 h1) hl.le), ?_⟩
            rw [hconv, mul_neg, neg_neg, mul_div_cancel₀ _ hl.ne', ht, mv_mv, hv, add_sub_cancel]
          obtain ⟨t, h0, ht⟩ := h1
          have := hge'.lo t (ht ▸ hge.satv)
          rw [ht, le_antisymm h0 this, mv_zero]
        rw [hu', hv'] at huv'
        have hfrom : ∀ w, w = u ∨ w = v → ∃ s' ∈ segs, s'.1 = w ∧ s'.2 ≠ s'.1 := by
          rintro w (rfl | rfl)
          · exact ⟨(w, v), huv, rfl, Ne.symm hpt⟩
          · exact ⟨(w, u), huv', rfl, hpt⟩
        have hpath : PathOK segs := by
          refine ⟨fun s hs s' hs' a ha b hb' hne' => ?_, fun s hs => hfrom _ (hsegends s hs).2,
            fun s hs => hfrom _ (hsegends s hs).1, fun s hs s' hs' h1 h2 h3 => ?_⟩
          · refine hsep a b ((hext a).2 ?_) ((hext b).2 ?_) hne'
            · simp only [List.mem_cons, List.not_mem_nil, or_false] at ha
              rcases ha with rfl | rfl
              · exact (hsegends s hs).1
              · exact (hsegends s hs).2
            · simp only [List.mem_cons, List.not_mem_nil, or_false] at hb'
              rcases hb' with rfl | rfl
              · exact (hsegends s' hs').1
              · exact (hsegends s' hs').2
          · rcases (hsegends s hs).1 with a | a <;> rcases (hsegends s hs).2 with b | b <;>
              rcases (hsegends s' hs').1 with a' | a' <;> rcases (hsegends s' hs').2 with b' | b' <;>
              rw [a, a'] <;> rw [a, b] at h1 <;> rw [a', b'] at h2 <;> rw [b, b'] at h3 <;>
              first | exact absurd rfl h1 | exact absurd rfl h2 | exact absurd h3 hpt | exact absurd h3.symm hpt
        rw [hsegs] at hpath
        obtain ⟨D, hD, hchain, hnd, hhead⟩ := intervals2Path_spec hpath
        have hcyc := cyc_links hchain hhead
        have hbp : s0.1 ∈ D := List.mem_of_mem_head? hhead
        have hlink : ∀ a b, Link (s0 :: rest) a b → ∃ r, GEdge S r a b := fun a b h =>
          hg (a, b) (by rw [hsegs]; exact h.1)
        have hDext : ∀ q ∈ D, q = u ∨ q = v := by
          intro q hq
          obtain ⟨⟨p, -, hp⟩, -⟩ := hcyc q hq
          obtain ⟨r, hr⟩ := hlink p q hp
          exact (hext q).1 hr.extreme_stop
        have hboth : u ∈ D ∧ v ∈ D := by
          have hstep : ∀ q ∈ D, ∃ w ∈ D, q ≠ w := fun q hq => by
            obtain ⟨-, w, hw, hl⟩ := hcyc q hq
            exact ⟨w, hw, hl.2⟩
          rcases hDext _ hbp with h | h
          · obtain ⟨w, hw, hne'⟩ := hstep _ hbp
            rw [h] at hbp hne'
            rcases hDext w hw with h' | h'
            · exact absurd h'.symm hne'
            · exact ⟨hbp, h' ▸ hw⟩
          · obtain ⟨w, hw, hne'⟩ := hstep _ hbp
            rw [h] at hbp hne'
            rcases hDext w hw with h' | h'
            · exact ⟨h' ▸ hw, hbp⟩
            · exact absurd h'.symm hne'
        refine ⟨E, ho, hE, hstart, D, ⟨hnd, fun y => ?_, fun _ => ?_⟩, ?_, _, hseg,
          by rw [hsegs, hD, closePath_of_links hchain hhead fun _ _ h => h.2]⟩
        · rw [hext]
          refine ⟨hDext y, ?_⟩
          rintro (rfl | rfl)
          · exact hboth.1
          · exact hboth.2
        · rw [hhead]
          refine hchain.imp fun a b h => ?_
          obtain ⟨r, hr⟩ := hlink a b h
          exact hr.side h.2
        · unfold lineqsFinish
          dsimp only
          rw [hseg, hsegs]
          dsimp only
          rw [hD]
          show Except.ok _ = Except.ok _
          congr 1
          unfold uniquePts
          rw [List.map_append]
          refine firstOf_nodup _ [] ?_ (by simp) _ (Or.inl (List.mem_map_of_mem hbp))
          refine (List.nodup_map_iff_inj_on hnd).2 fun a ha b hb' he => ?_
          by_contra hab
          exact round12_ne (hsep a b ((hext a).2 (hDext a ha)) ((hext b).2 (hDext b hb')) hab) he

/-- If all edges of a nonempty set have a finite start, the set is bounded. -/
theorem bounded_of_starts' {S : List (Ineq2 K)} (hS : ∀ r ∈ S, dot2 r.1 r.1 ≠ 0) {c : K × K} (hsat : Sat2 S c)
    {E : List (Edge K)} (hE : boundaryIntervals 0 S = .ok (some E)) (hE0 : E ≠ [])
    (hst : ∀ e ∈ E, e.start.isSome) : BoundedSet (Sat2 S) := by
  rcases interior_or_line S c hsat with ⟨c', hc'⟩ | ⟨r, hr, hline⟩
  · exact bounded_of_starts hc' hE hE0 hst
  obtain ⟨hE1, hE2⟩ := C50_edges 0 S E hE
  have hrow : ∀ k ∈ S, ∀ y, Sat2 S y → dot2 k.1 y = k.2 → ∃ u, dot2 k.1 u = k.2 ∧ Sat2 S u ∧
      ∀ t, Sat2 S (mv u (dirOf k) t) → 0 ≤ t := by
    intro k hk y hy hky
    obtain ⟨i, hi, hik⟩ := List.getElem_of_mem hk
    have hik' : S[i]? = some k := by rw [List.getElem?_eq_getElem hi, hik]
    obtain ⟨e, he, hrow⟩ := hE2 i y hi ⟨fun r' hr' => by
      rw [hik'] at hr'; injection hr' with hr'; subst hr'; exact hky,
      fun j t _ ht => hy t (List.mem_of_getElem? ht)⟩
    obtain ⟨u, hu⟩ := Option.isSome_iff_exists.1 (hst e he)
    obtain ⟨r', hr', -, h1, h2, h3⟩ := edge_start_lo (hE1 e he) hu
    rw [hrow, hik'] at hr'
    injection hr' with hr'
    subst hr'
    exact ⟨u, h1, h2, h3⟩
  have hN := hS r hr
  obtain ⟨u, hu, hus, hulo⟩ := hrow r hr c hsat (hline c hsat)
  have hall : ∀ y, Sat2 S y → ∃ t, 0 ≤ t ∧ y = mv u (dirOf r) t := by
    intro y hy
    obtain ⟨t, ht⟩ := line_mv hN hu (hline y hy)
    exact ⟨t, hulo t (ht ▸ hy), ht⟩
  have hfin : ∃ M, ∀ t, 0 ≤ t → Sat2 S (mv u (dirOf r) t) → t ≤ M := by
    by_cases hpt : ∃ t1, 0 < t1 ∧ Sat2 S (mv u (dirOf r) t1)
    · obtain ⟨t1, ht1, hs1⟩ := hpt
      obtain ⟨k, hk, l, hl, hkr, hkm⟩ := opposite_row (m := mv u (dirOf r) (t1 / 2)) (ε := t1 / 2) hr hN hline
        (by linarith) (by rw [mv_mv, add_halves]; exact hs1)
        (by rw [mv_mv, add_neg_cancel, mv_zero]; exact hus)
      have hkdir : dirOf k = (-l * (dirOf r).1, -l * (dirOf r).2) := by
        refine Prod.ext ?_ ?_ <;> simp only [dirOf, hkr] <;> ring
      have hconv : ∀ w t, mv w (dirOf k) t = mv w (dirOf r) (-(l * t)) := by
        intro w t
        rw [hkdir]
        refine Prod.ext ?_ ?_ <;> simp only [mv] <;> ring
      have hku : dot2 k.1 u = k.2 := by
        rw [← hkm, dot2_mv, hkr]
        simp only [dot2, dirOf]
        ring
      obtain ⟨w, -, hws, hwlo⟩ := hrow k hk u hus hku
      obtain ⟨tw, -, htw⟩ := hall w hws
      refine ⟨tw, fun t _ ht => ?_⟩
      have : mv u (dirOf r) t = mv w (dirOf k) ((tw - t) / l) := by
        rw [hconv, mul_div_cancel₀ _ hl.ne', htw, mv_mv]
        congr 1
        ring
      have h5 := hwlo _ (this ▸ ht)
      have h6 := mul_nonneg h5 hl.le
      rw [div_mul_cancel₀ _ hl.ne'] at h6
      linarith
    · push Not at hpt
      refine ⟨0, fun t _ ht => ?_⟩
      by_contra hcon
      exact hpt t (not_le.1 hcon) ht
  obtain ⟨M, hM⟩ := hfin
  refine ⟨max (|u.1| + M * |(dirOf r).1|) (|u.2| + M * |(dirOf r).2|), fun y hy => ?_⟩
  obtain ⟨t, h0, rfl⟩ := hall y hy
  have h1 := hM t h0 hy
  have key : ∀ a d : K, |a + t * d| ≤ |a| + M * |d| := by
    intro a d
    have := abs_add_le a (t * d)
    rw [abs_mul, abs_of_nonneg h0] at this
    have := mul_le_mul_of_nonneg_right h1 (abs_nonneg d)
    linarith
  exact ⟨(key _ _).trans (le_max_left _ _), (key _ _).trans (le_max_right _ _)⟩

/-! ## lineqs -/

/-- C81, full statement: for a nonempty bounded set `lineqs` returns the list of all vertices in
clockwise order, up to the final rounding to twelve decimals. -/
def C81_statement (eps : K) (S : List (Ineq2 K)) : Prop :=
  (∃ c, Sat2 S c) → BoundedSet (Sat2 S) → ∀ bounds st, ∃ C, VertexList (Sat2 S) C ∧
    (lineqs eps S bounds st).1 = .ok (C.map round12)

/-- A rectangle one unit long and `1e-9` wide. -/
def thinBox : List (Ineq2 ℚ) := [((1, 0), 0), ((0, 1), 0), ((-1, 0), -1), ((0, -1), -1 / 10 ^ 9)]

theorem thinBox_bounded : BoundedSet (Sat2 thinBox) := by
  refine ⟨1, fun x hx => ?_⟩
  have h1 := hx ((1, 0), 0) (by simp [thinBox])
  have h2 := hx ((0, 1), 0) (by simp [thinBox])
  have h3 := hx ((-1, 0), -1) (by simp [thinBox])
  have h4 := hx ((0, -1), -1 / 10 ^ 9) (by simp [thinBox])
  norm_num [dot2] at h1 h2 h3 h4
  constructor <;> rw [abs_le] <;> constructor <;> linarith

/-- `(1, 0)` is a vertex of the thin rectangle. -/
theorem thinBox_corner : Extreme (Sat2 thinBox) (1, 0) := by
  refine ⟨by intro r hr; simp only [thinBox, List.mem_cons, List.not_mem_nil, or_false] at hr;
             rcases hr with rfl | rfl | rfl | rfl <;> norm_num [dot2], fun x y hx hy h1 h2 => ?_⟩
  have a3 := hx ((-1, 0), -1) (by simp [thinBox])
  have a4 := hx ((0, 1), 0) (by simp [thinBox])
  have b3 := hy ((-1, 0), -1) (by simp [thinBox])
  have b4 := hy ((0, 1), 0) (by simp [thinBox])
  norm_num [dot2] at a3 a4 b3 b4 h1 h2
  refine Prod.ext ?_ ?_ <;> dsimp only <;> linarith

/-- C81: false, because points closer than `1e-8` are identified when the edges are joined: of the four
vertices of a thin rectangle two are lost. -/
theorem C81_all_vertices_false :
    ¬ C81_statement (1 / 10 ^ 301 : ℚ) thinBox ∧ ¬ C81_statement (0 : ℚ) thinBox := by
  have main : ∀ eps : ℚ, round12 ((1 : ℚ), 0) ∉ verticesOf (lineqs eps thinBox none []) →
      ¬ C81_statement eps thinBox := by
    intro eps hno h
    obtain ⟨C, ⟨-, hC, -⟩, hr⟩ := h ⟨(1 / 2, 1 / 2 / 10 ^ 9), by
      intro r hr; simp only [thinBox, List.mem_cons, List.not_mem_nil, or_false] at hr
      rcases hr with rfl | rfl | rfl | rfl <;> norm_num [dot2]⟩ thinBox_bounded none []
    refine hno ?_
    unfold verticesOf
    rw [hr]
    exact List.mem_map_of_mem ((hC _).2 thinBox_corner)
  exact ⟨main _ (by decide +kernel), main _ (by decide +kernel)⟩

/-- Rows that `lineqs` keeps, `/repo/intvalpy/linear/boundary_intervals.py:184`. -/
theorem lineqs_rows {S : List (Ineq2 K)} (hS : ∀ r ∈ S, ExactRow (toIneq r)) :
    ((clearZeroRows (d := 2) 2 (S.map fun r => (![r.1.1, r.1.2], r.2))).1.map
      fun r => (((r.1 0, r.1 1), r.2) : Ineq2 K)) = S.filter fun r => decide (dot2 r.1 r.1 ≠ 0) := by
  have hexact : ∀ r ∈ S.map toIneq, ExactRow r := by
    intro r hr
    obtain ⟨r', hr', rfl⟩ := List.mem_map.1 hr
    exact hS r' hr'
  unfold clearZeroRows
  dsimp only
  rw [show (S.map fun r : Ineq2 K => ((![r.1.1, r.1.2], r.2) : Ineq K 2)) = S.map toIneq from rfl,
    map_aroundRow hexact, List.filter_map, List.map_map]
  rw [show (fun r : Ineq K 2 => (((r.1 0, r.1 1), r.2) : Ineq2 K)) ∘ toIneq = id from rfl, List.map_id]
  refine List.filter_congr fun r hr => ?_
  have hex := (hS r hr).1
  have hcount : smallCount (toIneq r) = 2 ↔ dot2 r.1 r.1 = 0 := by
    rw [smallCount_eq_iff]
    constructor
    · intro h
      have a : r.1.1 = 0 := (hex 0).2.resolve_right (not_lt.2 (h 0))
      have b : r.1.2 = 0 := (hex 1).2.resolve_right (not_lt.2 (h 1))
      simp [dot2, a, b]
    · intro h
      have a : r.1.1 = 0 := by
        have := mul_self_nonneg r.1.1; have := mul_self_nonneg r.1.2
        simp only [dot2] at h
        exact mul_self_eq_zero.1 (by linarith)
      have b : r.1.2 = 0 := by
        have := mul_self_nonneg r.1.1; have := mul_self_nonneg r.1.2
        simp only [dot2] at h
        exact mul_self_eq_zero.1 (by linarith)
      intro j
      have : (toIneq r).1 j = 0 := by fin_cases j <;> [exact a; exact b]
      rw [this, abs_zero]
      positivity
  simp only [Function.comp, bne, beq_eq_decide, ← Bool.not_eq_eq_eq_not]
  by_cases h : dot2 r.1 r.1 = 0
  · simp [h, hcount.2 h]
  · have := mt hcount.1 h
    simp [h, this]

/-- Leaving out zero rows that hold everywhere does not change the set. -/
theorem sat2_filter {S : List (Ineq2 K)} (hz : ∀ r ∈ S, r.1 = (0, 0) → r.2 ≤ 0) :
    Sat2 (S.filter fun r => decide (dot2 r.1 r.1 ≠ 0)) = Sat2 S := by
  funext x
  refine propext ⟨fun h r hr => ?_, fun h r hr => h r (List.mem_of_mem_filter hr)⟩
  by_cases h0 : dot2 r.1 r.1 = 0
  · have a := mul_self_nonneg r.1.1
    have b := mul_self_nonneg r.1.2
    have h1 : r.1.1 = 0 := mul_self_eq_zero.1 (by simp only [dot2] at h0; linarith)
    have h2 : r.1.2 = 0 := mul_self_eq_zero.1 (by simp only [dot2] at h0; linarith)
    have := hz r hr (Prod.ext h1 h2)
    simpa [dot2, h1, h2] using this
  · exact h r (List.mem_filter.2 ⟨hr, by simpa using h0⟩)

/-- C81 (bounded sets): let the rows have at most twelve decimals and coefficients that are zero or larger than
`1e-12`; let the zero rows hold everywhere, the set be nonempty and bounded and its vertices be more than
`1e-8` apart.  Then `lineqs` returns, whatever the window and the history, the list of
all vertices of the set and nothing else, each once and in clockwise order, rounded to twelve decimals. -/
theorem C81_all_vertices_partial (S : List (Ineq2 K)) (hS : ∀ r ∈ S, ExactRow (toIneq r))
    (hz : ∀ r ∈ S, r.1 = (0, 0) → r.2 ≤ 0) (hc : ∃ c, Sat2 S c)
    (hb : BoundedSet (Sat2 S)) (hsep : Separated (Sat2 S)) (bounds : Option ((K × K) × (K × K))) (st : List K) :
    ∃ C, VertexList (Sat2 S) C ∧ lineqs 0 S bounds st = (.ok (C.map round12), st) := by
  set T := S.filter fun r => decide (dot2 r.1 r.1 ≠ 0) with hT
  have hsat : Sat2 T = Sat2 S := sat2_filter hz
  have hTn : ∀ r ∈ T, dot2 r.1 r.1 ≠ 0 := fun r hr => by simpa using (List.mem_filter.1 hr).2
  obtain ⟨c, hc⟩ := hc
  have hne : T ≠ [] := by
    intro h0
    obtain ⟨R, hR⟩ := hb
    rw [← hsat, h0] at hR
    have h1 := (hR (|R| + 1, 0) fun r hr => by cases hr).1
    dsimp only at h1
    rw [abs_of_nonneg (by positivity)] at h1
    have := le_abs_self R
    linarith
  obtain ⟨E, hE, hE0, hstart, C, ⟨h1, h2, h3⟩, hfin, -⟩ :=
    convex_finish hTn hne (hsat ▸ hc) (hsat ▸ hb) (hsat ▸ hsep)
  refine ⟨C, hsat ▸ ⟨h1, h2, h3⟩, ?_⟩
  unfold lineqs
  dsimp only
  rw [lineqs_rows hS, ← hT, hE]
  cases E with
  | nil => exact absurd rfl hE0
  | cons e E =>
      dsimp only
      have hpp : (particularPoints T (e :: E)).2 = false := by
        unfold particularPoints
        rw [if_neg]
        simp only [List.any_eq_true, not_exists, not_and, Bool.not_eq_true]
        intro e' he'
        have := hstart e' he'
        cases h : e'.start with
        | none => rw [h] at this; cases this
        | some _ => rfl
      rw [hpp, hfin]
      rfl

theorem sat2_window {lo hi c : K × K} (h1 : lo.1 ≤ c.1) (h2 : lo.2 ≤ c.2) (h3 : c.1 ≤ hi.1) (h4 : c.2 ≤ hi.2) :
    Sat2 (windowRows lo hi) c := by
  intro r hr
  simp only [windowRows, List.mem_cons, List.not_mem_nil, or_false] at hr
  rcases hr with rfl | rfl | rfl | rfl <;> simp [dot2] <;> assumption

/-- The part of `P` inside the window. -/
def Shown (P : K × K → Prop) (lo hi x : K × K) : Prop :=
  P x ∧ lo.1 ≤ x.1 ∧ lo.2 ≤ x.2 ∧ x.1 ≤ hi.1 ∧ x.2 ≤ hi.2

theorem sat2_shown (S : List (Ineq2 K)) (lo hi : K × K) : Sat2 (S ++ windowRows lo hi) = Shown (Sat2 S) lo hi := by
  funext x
  refine propext ⟨fun h => ?_, fun h r hr => ?_⟩
  · have a1 := h ((1, 0), lo.1) (by simp [windowRows])
    have a2 := h ((0, 1), lo.2) (by simp [windowRows])
    have a3 := h ((-1, 0), -hi.1) (by simp [windowRows])
    have a4 := h ((0, -1), -hi.2) (by simp [windowRows])
    simp only [dot2, one_mul, zero_mul, add_zero, zero_add, neg_mul, neg_le_neg_iff] at a1 a2 a3 a4
    exact ⟨sat2_append _ _ _ h, a1, a2, a3, a4⟩
  · rcases List.mem_append.1 hr with hr | hr
    · exact h.1 r hr
    · exact sat2_window h.2.1 h.2.2.1 h.2.2.2.1 h.2.2.2.2 r hr

theorem window_bounded (T : List (Ineq2 K)) (lo hi : K × K) : BoundedSet (Sat2 (T ++ windowRows lo hi)) := by
  refine ⟨max (max |lo.1| |lo.2|) (max |hi.1| |hi.2|), fun x hx => ?_⟩
  have a1 := hx ((1, 0), lo.1) (by simp [windowRows])
  have a2 := hx ((0, 1), lo.2) (by simp [windowRows])
  have a3 := hx ((-1, 0), -hi.1) (by simp [windowRows])
  have a4 := hx ((0, -1), -hi.2) (by simp [windowRows])
  simp only [dot2, one_mul, zero_mul, add_zero, zero_add, neg_mul, neg_le_neg_iff] at a1 a2 a3 a4
  have b1 := neg_abs_le lo.1
  have b2 := neg_abs_le lo.2
  have b3 := le_abs_self hi.1
  have b4 := le_abs_self hi.2
  have c1 := (le_max_left |lo.1| |lo.2|).trans (le_max_left _ (max |hi.1| |hi.2|))
  have c2 := (le_max_right |lo.1| |lo.2|).trans (le_max_left _ (max |hi.1| |hi.2|))
  have c3 := (le_max_left |hi.1| |hi.2|).trans (le_max_right (max |lo.1| |lo.2|) _)
  have c4 := (le_max_right |hi.1| |hi.2|).trans (le_max_right (max |lo.1| |lo.2|) _)
  constructor <;> rw [abs_le] <;> constructor <;> linarith

theorem windowRows_nz {lo hi : K × K} : ∀ r ∈ windowRows lo hi, dot2 r.1 r.1 ≠ 0 := by
  intro r hr
  simp only [windowRows, List.mem_cons, List.not_mem_nil, or_false] at hr
  rcases hr with rfl | rfl | rfl | rfl <;> simp [dot2]

/-- The rows of `S` that touch the set, by the feet of their perpendiculars. -/
def TouchingFeet (S : List (Ineq2 K)) (p : K × K) : Prop :=
  ∃ r ∈ S, r.1 ≠ (0, 0) ∧ (∃ x, Sat2 S x ∧ dot2 r.1 x = r.2) ∧ p = foot r

/-- C81 (unbounded sets): under the same conditions on the rows, for an unbounded set and a window that contains
a point of it, `lineqs` returns the vertices of the part of the set inside the window.  Without a window
given, the window is the one computed from the feet of the perpendiculars on the rows that touch the set, and
the largest absolute value of its coordinates is appended to the history. -/
theorem C81_window_partial (S : List (Ineq2 K)) (hS : ∀ r ∈ S, ExactRow (toIneq r))
    (hz : ∀ r ∈ S, r.1 = (0, 0) → r.2 ≤ 0) (hub : ¬ BoundedSet (Sat2 S)) (hnz : ∃ r ∈ S, r.1 ≠ (0, 0))
    (c : K × K) (hc : Sat2 S c) (st : List K) :
    (∀ lo hi : K × K, lo.1 ≤ c.1 → lo.2 ≤ c.2 → c.1 ≤ hi.1 → c.2 ≤ hi.2 →
      Separated (Shown (Sat2 S) lo hi) → ∃ C, VertexList (Shown (Sat2 S) lo hi) C ∧
        lineqs 0 S (some (lo, hi)) st = (.ok (C.map round12), st)) ∧
    ∃ P, (∀ p, p ∈ P ↔ TouchingFeet S p) ∧ ∀ lo hi : K × K, autoWindow P = (lo, hi) →
      lo.1 ≤ c.1 → lo.2 ≤ c.2 → c.1 ≤ hi.1 → c.2 ≤ hi.2 →
      Separated (Shown (Sat2 S) lo hi) → ∃ C, VertexList (Shown (Sat2 S) lo hi) C ∧ lineqs 0 S none st =
        (.ok (C.map round12), st ++ [max (max |lo.1| |hi.1|) (max |lo.2| |hi.2|)]) := by
  set T := S.filter fun r => decide (dot2 r.1 r.1 ≠ 0) with hT
  have hsat : Sat2 T = Sat2 S := sat2_filter hz
  have hzero : ∀ r : Ineq2 K, dot2 r.1 r.1 = 0 ↔ r.1 = (0, 0) := by
    intro r
    constructor
    · intro h0
      have a := mul_self_nonneg r.1.1
      have b := mul_self_nonneg r.1.2
      simp only [dot2] at h0
      exact Prod.ext (mul_self_eq_zero.1 (by linarith)) (mul_self_eq_zero.1 (by linarith))
    · intro h0; simp [h0, dot2]
  have hTn : ∀ r ∈ T, dot2 r.1 r.1 ≠ 0 := fun r hr => by simpa using (List.mem_filter.1 hr).2
  have hTm : ∀ r, r ∈ T ↔ r ∈ S ∧ r.1 ≠ (0, 0) := fun r => by
    rw [hT, List.mem_filter, decide_eq_true_eq, Ne, hzero r]
  have hne : T ≠ [] := by
    obtain ⟨r, hr, h0⟩ := hnz
    intro hnil
    have := (hTm r).2 ⟨hr, h0⟩
    rw [hnil] at this
    cases this
  have hsatc : Sat2 T c := hsat ▸ hc
  obtain ⟨o, ho⟩ := C50_total 0 T hTn
  have hempty := C50_empty_iff 0 T hTn hne
  cases o with
  | none => exact absurd hsatc (hempty.1 (Or.inl ho) c)
  | some E =>
      have hE : E ≠ [] := by
        rintro rfl
        exact hempty.1 (Or.inr ho) c hsatc
      have hinf : (E.any fun e => e.start.isNone) = true := by
        by_contra hno
        rw [List.any_eq_true] at hno
        push Not at hno
        refine hub (hsat ▸ bounded_of_starts' hTn hsatc ho hE fun e he => ?_)
        have := hno e he
        cases h : e.start with
        | none => rw [h] at this; exact absurd rfl this
        | some _ => rfl
      have hcore : ∀ lo hi : K × K, lo.1 ≤ c.1 → lo.2 ≤ c.2 → c.1 ≤ hi.1 → c.2 ≤ hi.2 →
          Separated (Shown (Sat2 S) lo hi) → ∃ E' C, boundaryIntervals 0 (T ++ windowRows lo hi) = .ok (some E')
            ∧ VertexList (Shown (Sat2 S) lo hi) C ∧ lineqsFinish (some E') = .ok (C.map round12) := by
        intro lo hi h1 h2 h3 h4 hsep
        have hint : Sat2 (T ++ windowRows lo hi) c := fun r hr =>
          (List.mem_append.1 hr).elim (hsatc r) (sat2_window h1 h2 h3 h4 r)
        have hsat' : Sat2 (T ++ windowRows lo hi) = Shown (Sat2 S) lo hi := by rw [sat2_shown, hsat]
        obtain ⟨E', hE', -, -, C, ⟨c1, c2, c3⟩, hfin, -⟩ := convex_finish (S := T ++ windowRows lo hi)
          (fun r hr => (List.mem_append.1 hr).elim (hTn r) (windowRows_nz r)) (by simp [windowRows]) hint
          (window_bounded T lo hi) (hsat' ▸ hsep)
        exact ⟨E', C, hE', hsat' ▸ ⟨c1, c2, c3⟩, hfin⟩
      have hpp : particularPoints T E = (E.filterMap fun e => (T[e.row]?).map foot, true) := by
        unfold particularPoints
        rw [if_pos hinf]
      constructor
      · intro lo hi h1 h2 h3 h4 hsep
        obtain ⟨E', C, hE', hC, hfin⟩ := hcore lo hi h1 h2 h3 h4 hsep
        refine ⟨C, hC, ?_⟩
        unfold lineqs
        dsimp only
        rw [lineqs_rows hS, ← hT, ho]
        cases E with
        | nil => exact absurd rfl hE
        | cons e E =>
            dsimp only
            rw [hpp, hE']
            simp only [if_true]
            rw [hfin]
      · obtain ⟨hE1, hE2⟩ := C50_edges 0 T E ho
        refine ⟨E.filterMap fun e => (T[e.row]?).map foot, fun p => ?_, fun lo hi hw h1 h2 h3 h4 hsep => ?_⟩
        · rw [List.mem_filterMap]
          constructor
          · rintro ⟨e, he, hp⟩
            obtain ⟨r, lo, hi, hr, hN, -, -, ⟨t, ht⟩, hon⟩ := hE1 e he
            rw [hr] at hp
            injection hp with hp
            have hrT := List.mem_of_getElem? hr
            have hon' := (hon (linePt r t)).2 ⟨t, ht, rfl⟩
            exact ⟨r, ((hTm r).1 hrT).1, ((hTm r).1 hrT).2,
              ⟨linePt r t, hsat ▸ sat2_of_onEdge hon', hon'.1 r hr⟩, hp.symm⟩
          · rintro ⟨r, hr, h0, ⟨x, hx, hxr⟩, rfl⟩
            obtain ⟨i, hi, hir⟩ := List.getElem_of_mem ((hTm r).2 ⟨hr, h0⟩)
            have hir' : T[i]? = some r := by rw [List.getElem?_eq_getElem hi, hir]
            rw [← hsat] at hx
            obtain ⟨e, he, hrow⟩ := hE2 i x hi ⟨fun r' hr' => by
              rw [hir'] at hr'; injection hr' with hr'; subst hr'; exact hxr,
              fun j t _ ht => hx t (List.mem_of_getElem? ht)⟩
            exact ⟨e, he, by rw [hrow, hir']; rfl⟩
        · obtain ⟨E', C, hE', hC, hfin⟩ := hcore lo hi h1 h2 h3 h4 hsep
          refine ⟨C, hC, ?_⟩
          have hm : ∀ a s : K, 0 ≤ s → max |a - s| |a + s| = |a| + s := by
            intro a s hs
            rcases le_total 0 a with ha | ha
            · rw [abs_of_nonneg ha, abs_of_nonneg (add_nonneg ha hs), max_eq_right]
              exact abs_le.2 ⟨by linarith, by linarith⟩
            · rw [abs_of_nonpos ha, abs_of_nonpos (show a - s ≤ 0 by linarith), max_eq_left, neg_sub]
              · ring
              · exact abs_le.2 ⟨by linarith, by linarith⟩
          have hw' := hw
          unfold autoWindow at hw'
          dsimp only at hw'
          set cr := centerRm (E.filterMap fun e => (T[e.row]?).map foot) with hcr
          have e1 := congrArg Prod.fst hw'
          have e2 := congrArg Prod.snd hw'
          dsimp only at e1 e2
          have hpos : 0 ≤ 5 * cr.2 := by
            have := h1.trans h3
            rw [← e1, ← e2] at this
            dsimp only at this
            linarith
          have hent : max (max |lo.1| |hi.1|) (max |lo.2| |hi.2|)
              = max (|cr.1.1| + 5 * cr.2) (|cr.1.2| + 5 * cr.2) := by
            rw [← e1, ← e2]
            dsimp only
            rw [hm _ _ hpos, hm _ _ hpos]
          rw [hent]
          unfold lineqs
          dsimp only
          rw [lineqs_rows hS, ← hT, ho]
          cases E with
          | nil => exact absurd rfl hE
          | cons e E =>
              dsimp only
              rw [hpp]
              simp only [if_true]
              rw [hw]
              dsimp only
              rw [hE']
              dsimp only
              rw [hfin]

/-- The unit square. -/
def unitSquare : List (Ineq2 ℚ) := [((1, 0), 0), ((0, 1), 0), ((-1, 0), -1), ((0, -1), -1)]

theorem unitSquare_iff (x : ℚ × ℚ) : Sat2 unitSquare x ↔ (0 ≤ x.1 ∧ x.1 ≤ 1) ∧ 0 ≤ x.2 ∧ x.2 ≤ 1 := by
  unfold Sat2 unitSquare
  simp only [List.mem_cons, List.not_mem_nil, or_false, forall_eq_or_imp, forall_eq, dot2]
  constructor
  · rintro ⟨h1, h2, h3, h4⟩
    exact ⟨⟨by linarith, by linarith⟩, by linarith, by linarith⟩
  · rintro ⟨⟨h1, h2⟩, h3, h4⟩
    exact ⟨by linarith, by linarith, by linarith, by linarith⟩

theorem unitSquare_separated : Separated (Sat2 unitSquare) := by
  have corner : ∀ u, Extreme (Sat2 unitSquare) u → (u.1 = 0 ∨ u.1 = 1) ∧ (u.2 = 0 ∨ u.2 = 1) := by
    intro u hu
    obtain ⟨⟨h1, h2⟩, h3, h4⟩ := (unitSquare_iff u).1 hu.1
    constructor
    · by_contra hcon
      push Not at hcon
      have a := lt_of_le_of_ne h1 (Ne.symm hcon.1)
      have b := lt_of_le_of_ne h2 hcon.2
      have hd : 0 < min u.1 (1 - u.1) := lt_min a (by linarith)
      have hl := min_le_left u.1 (1 - u.1)
      have hr := min_le_right u.1 (1 - u.1)
      have := hu.2 (u.1 - min u.1 (1 - u.1), u.2) (u.1 + min u.1 (1 - u.1), u.2)
        ((unitSquare_iff _).2 ⟨⟨by simp only []; linarith, by simp only []; linarith⟩, h3, h4⟩)
        ((unitSquare_iff _).2 ⟨⟨by simp only []; linarith, by simp only []; linarith⟩, h3, h4⟩)
        (by simp only []; ring) (by simp only []; ring)
      have := congrArg Prod.fst this
      simp only [] at this
      linarith
    · by_contra hcon
      push Not at hcon
      have a := lt_of_le_of_ne h3 (Ne.symm hcon.1)
      have b := lt_of_le_of_ne h4 hcon.2
      have hd : 0 < min u.2 (1 - u.2) := lt_min a (by linarith)
      have hl := min_le_left u.2 (1 - u.2)
      have hr := min_le_right u.2 (1 - u.2)
      have := hu.2 (u.1, u.2 - min u.2 (1 - u.2)) (u.1, u.2 + min u.2 (1 - u.2))
        ((unitSquare_iff _).2 ⟨⟨h1, h2⟩, by simp only []; linarith, by simp only []; linarith⟩)
        ((unitSquare_iff _).2 ⟨⟨h1, h2⟩, by simp only []; linarith, by simp only []; linarith⟩)
        (by simp only []; ring) (by simp only []; ring)
      have := congrArg Prod.snd this
      simp only [] at this
      linarith
  intro u v hu hv hne
  obtain ⟨hu1, hu2⟩ := corner u hu
  obtain ⟨hv1, hv2⟩ := corner v hv
  obtain ⟨u1, u2⟩ := u
  obtain ⟨v1, v2⟩ := v
  dsimp only at hu1 hu2 hv1 hv2
  rcases hu1 with rfl | rfl <;> rcases hu2 with rfl | rfl <;> rcases hv1 with rfl | rfl <;>
    rcases hv2 with rfl | rfl <;> first | exact absurd rfl hne | norm_num [maxDist]

theorem onGrid_int (z : ℤ) : OnGrid (z : K) := ⟨z * 10 ^ 12, by
  rw [Int.cast_mul, Int.cast_pow, Int.cast_ofNat]
  exact (mul_div_cancel_right₀ (z : K) (show (10 ^ 12 : K) ≠ 0 by positivity)).symm⟩

/-- Rows of integers are kept exactly by the preprocessing. -/
theorem exactRow_int (a b c : ℤ) : ExactRow (toIneq (((a : K), (b : K)), (c : K))) := by
  have key : ∀ z : ℤ, OnGrid (z : K) ∧ ((z : K) = 0 ∨ 1 / 10 ^ 12 < |(z : K)|) := by
    intro z
    refine ⟨onGrid_int z, ?_⟩
    by_cases h : z = 0
    · exact Or.inl (by simp [h])
    · right
      have h1 : (1 : K) ≤ |(z : K)| := by exact_mod_cast Int.one_le_abs h
      have h2 : (1 : K) / 10 ^ 12 < 1 := by norm_num
      exact h2.trans_le h1
  refine ⟨fun j => ?_, onGrid_int c⟩
  fin_cases j
  · exact key a
  · exact key b

/-- The hypotheses of `C81_all_vertices_partial` hold for the unit square. -/
example : ∃ C, VertexList (Sat2 unitSquare) C ∧ lineqs 0 unitSquare none [] = (.ok (C.map round12), []) := by
  refine C81_all_vertices_partial unitSquare ?_ ?_ ⟨(1 / 2, 1 / 2), (unitSquare_iff _).2 (by norm_num)⟩ ⟨1, fun x hx => ?_⟩ unitSquare_separated
    none []
  · intro r hr
    simp only [unitSquare, List.mem_cons, List.not_mem_nil, or_false] at hr
    rcases hr with rfl | rfl | rfl | rfl
    · simpa using exactRow_int (K := ℚ) 1 0 0
    · simpa using exactRow_int (K := ℚ) 0 1 0
    · simpa using exactRow_int (K := ℚ) (-1) 0 (-1)
    · simpa using exactRow_int (K := ℚ) 0 (-1) (-1)
  · intro r hr
    simp only [unitSquare, List.mem_cons, List.not_mem_nil, or_false] at hr
    rcases hr with rfl | rfl | rfl | rfl <;> simp
  · obtain ⟨⟨h1, h2⟩, h3, h4⟩ := (unitSquare_iff x).1 hx
    constructor <;> rw [abs_le] <;> constructor <;> linarith

/-- The hypotheses of `C81_window_partial` hold for the half plane `x ≥ 0` and a window around `(1, 1)`. -/
example : ¬ BoundedSet (Sat2 [(((1 : ℚ), 0), 0)]) ∧ (∀ r ∈ [(((1 : ℚ), (0 : ℚ)), (0 : ℚ))], ExactRow (toIneq r)) ∧
    Sat2 [(((1 : ℚ), 0), 0)] (1, 1) ∧
    verticesOf (lineqs 0 [((1, 0), 0)] (some ((-2, -2), (2, 2))) []) = [(0, -2), (0, 2), (2, 2), (2, -2)] := by
  refine ⟨?_, ?_, ?_, by decide +kernel⟩
  · rintro ⟨R, hR⟩
    have := (hR (|R| + 1, 0) (by
      intro r hr
      rw [List.mem_singleton.1 hr]
      simp only [dot2]
      have := abs_nonneg R
      linarith)).1
    dsimp only at this
    rw [abs_of_nonneg (by positivity)] at this
    have := le_abs_self R
    linarith
  · intro r hr
    rw [List.mem_singleton.1 hr]
    simpa using exactRow_int (K := ℚ) 1 0 0
  · intro r hr
    rw [List.mem_singleton.1 hr]
    norm_num [dot2]

/-- A window that misses the set: `Intervals2Path` is given the empty list and raises `TypeError`; no empty array of vertices is
returned. -/
theorem C81_window_miss : lineqs (0 : ℚ) [((1, 0), 0)] (some ((-2, -2), (-1, 2))) [] = (.error .typeError, []) := by
  decide +kernel

/-- The value for the unit square. -/
example : verticesOf (lineqs 0 unitSquare none []) = [(0, 0), (0, 1), (1, 1), (1, 0)] := by decide +kernel

end IntvalPy
