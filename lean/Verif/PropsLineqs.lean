import Verif.PropsBoundary

/-!
# Vertices returned by lineqs (C50) and the drawing history (C51)
-/

set_option autoImplicit false
set_option linter.unusedSectionVars false

namespace IntvalPy

open Spec

variable {K : Type*} [Field K] [LinearOrder K] [FloorRing K] [IsStrictOrderedRing K]

theorem pathLoop_mem (bp : K × K) (fuel : Nat) (bs : K × K) (old : Nat) (S : List (Seg K)) (P Q : List (K × K))
    (h : pathLoop bp fuel bs old S P = .ok Q) : ∀ q ∈ Q, q ∈ P ∨ ∃ s ∈ S, q = s.2 := by
  induction fuel generalizing bs old S P with
  | zero =>
      injection h with h
      subst h
      exact fun q hq => Or.inl hq
  | succ fuel ih =>
      unfold pathLoop at h
      split_ifs at h with hS
      · injection h with h
        subst h
        exact fun q hq => Or.inl hq
      · dsimp only at h
        cases hs : S[findStart bs S old]? with
        | none => rw [hs] at h; cases h
        | some s =>
            rw [hs] at h
            dsimp only at h
            have hmem := List.mem_of_getElem? hs
            have hsub : ∀ s' ∈ S.eraseIdx (findStart bs S old), s' ∈ S := fun s' h' =>
              List.mem_of_mem_eraseIdx h'
            split_ifs at h with h1 h2
            · injection h with h
              subst h
              intro q hq
              rcases List.mem_append.1 hq with hq | hq
              · exact Or.inl hq
              · exact Or.inr ⟨s, hmem, List.mem_singleton.1 hq⟩
            · intro q hq
              rcases ih _ _ _ _ h q hq with hq | ⟨s', h3, h4⟩
              · rcases List.mem_append.1 hq with hq | hq
                · exact Or.inl hq
                · exact Or.inr ⟨s, hmem, List.mem_singleton.1 hq⟩
              · exact Or.inr ⟨s', hsub s' h3, h4⟩
            · intro q hq
              rcases ih _ _ _ _ h q hq with hq | ⟨s', h3, h4⟩
              · exact Or.inl hq
              · exact Or.inr ⟨s', hsub s' h3, h4⟩

theorem intervals2Path_mem (S : List (Seg K)) (Q : List (K × K)) (h : intervals2Path S = .ok Q) :
    ∀ q ∈ Q, ∃ s ∈ S, q = s.1 ∨ q = s.2 := by
  cases S with
  | nil => cases h
  | cons s S =>
      intro q hq
      rcases pathLoop_mem _ _ _ _ _ _ _ h q hq with hq | ⟨s', h1, h2⟩
      · exact ⟨s, List.mem_cons_self, Or.inl (List.mem_singleton.1 hq)⟩
      · exact ⟨s', h1, Or.inr h2⟩

theorem segsOf_mem (E : List (Edge K)) (segs : List (Seg K)) (h : segsOf E = some segs) (s : Seg K)
    (hs : s ∈ segs) : ∃ e ∈ E, e.start = some s.1 ∧ e.stop = some s.2 := by
  induction E generalizing segs with
  | nil =>
      unfold segsOf at h
      simp only [List.mapM_nil, Option.pure_def, Option.some.injEq] at h
      subst h
      cases hs
  | cons e E ih =>
      unfold segsOf at h
      rw [List.mapM_cons] at h
      cases h1 : e.start with
      | none => simp [h1] at h
      | some u =>
          cases h2 : e.stop with
          | none => simp [h1, h2] at h
          | some v =>
              simp only [h1, h2, Option.pure_def, Option.bind_eq_bind, Option.bind_some] at h
              cases h3 : segsOf E with
              | none => unfold segsOf at h3; rw [h3] at h; cases h
              | some T =>
                  have h3' := h3
                  unfold segsOf at h3'
                  rw [h3'] at h
                  simp only [Option.bind_some, Option.some.injEq] at h
                  subst h
                  rcases List.mem_cons.1 hs with rfl | hs
                  · exact ⟨e, List.mem_cons_self, h1, h2⟩
                  · obtain ⟨e', he, h4⟩ := ih T h3 hs
                    exact ⟨e', List.mem_cons_of_mem _ he, h4⟩

theorem sat2_of_onEdge {S : List (Ineq2 K)} {i : Nat} {x : K × K} (h : OnEdge S i x) : Sat2 S x := by
  intro s hs
  obtain ⟨k, hk, rfl⟩ := List.getElem_of_mem hs
  by_cases hki : k = i
  · rw [h.1 _ (hki ▸ List.getElem?_eq_getElem hk)]
  · exact h.2 k _ hki (List.getElem?_eq_getElem hk)

/-- The finite endpoints of an edge solve the system. -/
theorem edge_ends_solve {S : List (Ineq2 K)} {e : Edge K} (h : IsEdgeOf 0 S e) (u : K × K)
    (hu : e.start = some u ∨ e.stop = some u) : Sat2 S u := by
  obtain ⟨r, lo, hi, hr, hN, h1, h2, ⟨t, ht⟩, hon⟩ := h
  rcases hu with hu | hu
  · rw [h1] at hu
    cases lo with
    | none => cases hu
    | some l =>
        injection hu with hu
        rw [(C50_endpoints 0 r l).2] at hu
        refine sat2_of_onEdge ((hon u).2 ⟨l, ⟨fun l' hl => ?_, fun h' hh => ?_⟩, hu.symm⟩)
        · injection hl with hl; exact hl.ge
        · exact (ht.1 l rfl).trans (ht.2 h' hh)
  · rw [h2] at hu
    cases hi with
    | none => cases hu
    | some l =>
        injection hu with hu
        rw [(C50_endpoints 0 r l).2] at hu
        refine sat2_of_onEdge ((hon u).2 ⟨l, ⟨fun l' hl => ?_, fun h' hh => ?_⟩, hu.symm⟩)
        · exact (ht.1 l' hl).trans (ht.2 l rfl)
        · injection hh with hh; exact hh.le

theorem lineqsFinish_mem {S : List (Ineq2 K)} {o : Option (List (Edge K))}
    (hS : boundaryIntervals 0 S = .ok o) {V : List (K × K)} (h : lineqsFinish o = .ok V) (v : K × K) (hv : v ∈ V) :
    ∃ x, Sat2 S x ∧ |v.1 - x.1| ≤ 1 / 2 / 10 ^ 12 ∧ |v.2 - x.2| ≤ 1 / 2 / 10 ^ 12 := by
  cases o with
  | none => cases h
  | some E =>
      unfold lineqsFinish at h
      dsimp only at h
      cases hs : segsOf E with
      | none => rw [hs] at h; cases h
      | some segs =>
          rw [hs] at h
          dsimp only at h
          cases hp : intervals2Path segs with
          | error e => rw [hp] at h; cases h
          | ok Q =>
              rw [hp] at h
              injection h with h
              subst h
              obtain ⟨p, hpQ, rfl⟩ := ((C49_unique Q).1 v).1 hv
              obtain ⟨s, hs', hps⟩ := intervals2Path_mem segs Q hp p hpQ
              obtain ⟨e, he, h1, h2⟩ := segsOf_mem E segs hs s hs'
              have hedge := (C50_edges 0 S E hS).1 e he
              refine ⟨p, ?_, around12_near _, around12_near _⟩
              rcases hps with rfl | rfl
              · exact edge_ends_solve hedge _ (Or.inl h1)
              · exact edge_ends_solve hedge _ (Or.inr h2)

/-- A plane row as a row with two coefficients. -/
def toIneq (r : Ineq2 K) : Ineq K 2 := (![r.1.1, r.1.2], r.2)

theorem sat2_iff (S : List (Ineq2 K)) (x : K × K) :
    Sat2 S x ↔ Satisfies (S.map toIneq) ![x.1, x.2] := by
  unfold Sat2 Satisfies
  simp only [List.mem_map, forall_exists_index, and_imp, forall_apply_eq_imp_iff₂]
  refine forall_congr' fun r => imp_congr_right fun _ => ?_
  simp [toIneq, Fin.sum_univ_two, dot2]

theorem sat2_append (S T : List (Ineq2 K)) (x : K × K) (h : Sat2 (S ++ T) x) : Sat2 S x :=
  fun r hr => h r (List.mem_append_left _ hr)

/-- C50 (vertices): in exact arithmetic, for a system whose rows have at most twelve decimals, nonzero
coefficients larger than `1e-12` and consistent zero rows, every vertex returned by `lineqs` is a solution of
the system, up to the final rounding to twelve decimals; whatever the window and the drawing history. -/
theorem C50_vertices (S : List (Ineq2 K)) (hS : ∀ r ∈ S, ExactRow (toIneq r))
    (hz : ∀ r ∈ S, r.1 = (0, 0) → r.2 ≤ 0) (bounds : Option ((K × K) × (K × K))) (st : List K)
    (V : List (K × K)) (h : (lineqs 0 S bounds st).1 = .ok V) (v : K × K) (hv : v ∈ V) :
    ∃ x, Sat2 S x ∧ |v.1 - x.1| ≤ 1 / 2 / 10 ^ 12 ∧ |v.2 - x.2| ≤ 1 / 2 / 10 ^ 12 := by
  set cz := clearZeroRows (d := 2) 2 (S.map fun r => (![r.1.1, r.1.2], r.2)) with hcz
  set T := cz.1.map fun r => (((r.1 0, r.1 1), r.2) : Ineq2 K) with hT
  have hexact : ∀ r ∈ S.map toIneq, ExactRow r := by
    intro r hr
    obtain ⟨r', hr', rfl⟩ := List.mem_map.1 hr
    exact hS r' hr'
  have hmap : T.map toIneq = cz.1 := by
    rw [hT, List.map_map]
    refine (List.map_congr_left fun r _ => ?_).trans (List.map_id _)
    refine Prod.ext (funext fun j => ?_) rfl
    fin_cases j <;> rfl
  have hflag : cz.2 = true := by
    rw [hcz]
    unfold clearZeroRows
    dsimp only
    rw [show (S.map fun r : Ineq2 K => ((![r.1.1, r.1.2], r.2) : Ineq K 2)) = S.map toIneq from rfl,
      map_aroundRow hexact]
    simp only [Bool.not_eq_true', List.any_eq_false, Bool.and_eq_true, beq_iff_eq, decide_eq_true_eq, not_and,
      not_lt]
    intro r hr hc
    obtain ⟨r', hr', rfl⟩ := List.mem_map.1 hr
    have hzero : ∀ j, (toIneq r').1 j = 0 := fun j =>
      ((hexact _ hr).1 j).2.resolve_right (not_lt.2 ((smallCount_eq_iff _).1 hc j))
    exact hz r' hr' (Prod.ext (hzero 0) (hzero 1))
  have back : ∀ x, Sat2 T x → Sat2 S x := by
    intro x hx
    rw [sat2_iff] at hx ⊢
    rw [hmap] at hx
    exact (C49_clear_partial (S.map toIneq) hexact _).2 ⟨hflag, hx⟩
  have fin : ∀ W o, boundaryIntervals 0 (T ++ W) = .ok o → lineqsFinish o = .ok V →
      ∃ x, Sat2 S x ∧ |v.1 - x.1| ≤ 1 / 2 / 10 ^ 12 ∧ |v.2 - x.2| ≤ 1 / 2 / 10 ^ 12 := by
    intro W o h1 h2
    obtain ⟨x, hx, hd⟩ := lineqsFinish_mem h1 h2 v hv
    exact ⟨x, back x (sat2_append _ _ _ hx), hd⟩
  unfold lineqs at h
  simp only [← hcz, ← hT] at h
  cases hb : boundaryIntervals 0 T with
  | error e => rw [hb] at h; cases h
  | ok o =>
      rw [hb] at h
      cases o with
      | none => dsimp only at h; injection h with h; subst h; cases hv
      | some E =>
          cases E with
          | nil => dsimp only at h; injection h with h; subst h; cases hv
          | cons e E =>
              dsimp only at h
              split_ifs at h with hp
              · cases bounds with
                | none =>
                    dsimp only at h
                    split at h
                    · cases h
                    · next S' hb' => exact fin _ S' hb' h
                | some w =>
                    obtain ⟨lo, hi⟩ := w
                    dsimp only at h
                    split at h
                    · cases h
                    · next S' hb' => exact fin _ S' hb' h
              · exact fin [] (some (e :: E)) (by rw [List.append_nil]; exact hb) h

/-! ## History -/

/-- C51, full statement: the value does not depend on the history kept in `__center_rm`. -/
def C51_statement (eps : K) {n : Nat} (A : Fin n → Fin 2 → Iv K) (b : Fin n → Iv K) (cons : Consistency)
    (bounds : Option ((K × K) × (K × K))) : Prop :=
  ∀ st, (intLinIncR2 eps A b cons bounds st).1 = (intLinIncR2 eps A b cons bounds []).1

/-- Value of a call of `IntLinIncR2`, for evaluation. -/
def orthVerticesOf (r : Hist ℚ (List (List (ℚ × ℚ)))) : List (List (ℚ × ℚ)) :=
  match r.1 with
  | .ok v => v
  | .error _ => []

/-- C51: false.  After `lineqs` has been called for the unbounded system `x ≥ 0`, `y ≥ 1`, which leaves `3` in
`__center_rm`, `IntLinIncR2` for `x + y ∈ [0, 1]` with the window `[-5, 5]²` ignores the window given and uses
`[-3, 3]²`. -/
theorem C51_history_false :
    (lineqs (1 / 10 ^ 301 : ℚ) [((1, 0), 0), ((0, 1), 1)] none []).2 = [3] ∧
    orthVerticesOf (intLinIncR2 (1 / 10 ^ 301 : ℚ) (fun _ : Fin 1 => ![⟨.classical, 1, 1⟩, ⟨.classical, 1, 1⟩])
      (fun _ => ⟨.classical, 0, 1⟩) .uni (some ((-5, -5), (5, 5))) []) =
      [[(0, 1), (1, 0), (0, 0)], [(-4, 5), (0, 1), (0, 0), (-5, 5)], [(0, 0)],
        [(1, 0), (5, -4), (5, -5), (0, 0)]] ∧
    orthVerticesOf (intLinIncR2 (1 / 10 ^ 301 : ℚ) (fun _ : Fin 1 => ![⟨.classical, 1, 1⟩, ⟨.classical, 1, 1⟩])
      (fun _ => ⟨.classical, 0, 1⟩) .uni (some ((-5, -5), (5, 5))) [3]) =
      [[(0, 1), (1, 0), (0, 0)], [(-2, 3), (0, 1), (0, 0), (-3, 3)], [(0, 0)],
        [(1, 0), (3, -2), (3, -3), (0, 0)]] ∧
    ¬ C51_statement (1 / 10 ^ 301 : ℚ) (fun _ : Fin 1 => ![⟨.classical, 1, 1⟩, ⟨.classical, 1, 1⟩])
      (fun _ => ⟨.classical, 0, 1⟩) .uni (some ((-5, -5), (5, 5))) := by
  have h1 : orthVerticesOf (intLinIncR2 (1 / 10 ^ 301 : ℚ)
      (fun _ : Fin 1 => ![⟨.classical, 1, 1⟩, ⟨.classical, 1, 1⟩])
      (fun _ => ⟨.classical, 0, 1⟩) .uni (some ((-5, -5), (5, 5))) []) =
      [[(0, 1), (1, 0), (0, 0)], [(-4, 5), (0, 1), (0, 0), (-5, 5)], [(0, 0)],
        [(1, 0), (5, -4), (5, -5), (0, 0)]] := by decide +kernel
  have h2 : orthVerticesOf (intLinIncR2 (1 / 10 ^ 301 : ℚ)
      (fun _ : Fin 1 => ![⟨.classical, 1, 1⟩, ⟨.classical, 1, 1⟩])
      (fun _ => ⟨.classical, 0, 1⟩) .uni (some ((-5, -5), (5, 5))) [3]) =
      [[(0, 1), (1, 0), (0, 0)], [(-2, 3), (0, 1), (0, 0), (-3, 3)], [(0, 0)],
        [(1, 0), (3, -2), (3, -3), (0, 0)]] := by decide +kernel
  refine ⟨by decide +kernel, h1, h2, fun h => ?_⟩
  have h3 := h [3]
  have h4 : orthVerticesOf (intLinIncR2 (1 / 10 ^ 301 : ℚ)
      (fun _ : Fin 1 => ![⟨.classical, 1, 1⟩, ⟨.classical, 1, 1⟩])
      (fun _ => ⟨.classical, 0, 1⟩) .uni (some ((-5, -5), (5, 5))) [3]) = orthVerticesOf (intLinIncR2 (1 / 10 ^ 301 : ℚ)
      (fun _ : Fin 1 => ![⟨.classical, 1, 1⟩, ⟨.classical, 1, 1⟩])
      (fun _ => ⟨.classical, 0, 1⟩) .uni (some ((-5, -5), (5, 5))) []) := by
    unfold orthVerticesOf; rw [h3]
  rw [h1, h2] at h4
  revert h4
  decide +kernel

/-- One drawing call. -/
inductive Call (K : Type*) where
  /-- `lineqs(A, b, bounds=...)` -/
  | lineqs (rows : List (Ineq2 K)) (bounds : Option ((K × K) × (K × K)))
  /-- `IntLinIncR2(A, b, consistency, bounds=...)` with intervals -/
  | r2 (n : Nat) (A : Fin n → Fin 2 → Iv K) (b : Fin n → Iv K) (cons : Consistency)
      (bounds : Option ((K × K) × (K × K)))

/-- The history after one call. -/
def Call.after (eps : K) : Call K → List K → List K
  | .lineqs rows bounds, st => (IntvalPy.lineqs eps rows bounds st).2
  | .r2 _ A b cons bounds, st => (intLinIncR2 eps A b cons bounds st).2

/-- Calls that cannot leave a trace: `lineqs` with a window, and `IntLinIncR2` returning normally. -/
def Call.Clean (eps : K) (c : Call K) (st : List K) : Prop :=
  match c with
  | .lineqs _ bounds => bounds ≠ none
  | .r2 _ A b cons bounds => ∃ v, (intLinIncR2 eps A b cons bounds st).1 = .ok v

/-- All calls of a history are clean when they are made. -/
def AllClean (eps : K) : List (Call K) → List K → Prop
  | [], _ => True
  | c :: cs, st => c.Clean eps st ∧ AllClean eps cs (c.after eps st)

theorem lineqs_window_state (eps : K) (rows : List (Ineq2 K)) (w : (K × K) × (K × K)) (st : List K) :
    (lineqs eps rows (some w) st).2 = st := by
  unfold lineqs
  dsimp only
  split
  · rfl
  · rfl
  · rfl
  · split_ifs
    · rfl
    · rfl

theorem r2_state (eps : K) {n : Nat} (A : Fin n → Fin 2 → Iv K) (b : Fin n → Iv K) (cons : Consistency)
    (bounds : Option ((K × K) × (K × K))) (st : List K) (v : List (List (K × K)))
    (h : (intLinIncR2 eps A b cons bounds st).1 = .ok v) : (intLinIncR2 eps A b cons bounds st).2 = [] := by
  unfold intLinIncR2 at h ⊢
  split at h
  · cases h
  · next vs st' he =>
    split_ifs at h ⊢ with hl
    · dsimp only at h ⊢
      split at h
      · cases h
      · rfl
    · rfl

/-- C51, partial: after any history consisting of `lineqs` calls with an explicit window and of `IntLinIncR2`
calls that returned normally, in any order and number, the next call of `IntLinIncR2` gives the same value as in
a fresh session.  Missing: histories with a `lineqs` call without window on an unbounded set, or with an
exception, for which the claim is false (`C51_history_false`). -/
theorem C51_history_partial (eps : K) (hist : List (Call K)) (hc : AllClean eps hist []) {n : Nat}
    (A : Fin n → Fin 2 → Iv K) (b : Fin n → Iv K) (cons : Consistency) (bounds : Option ((K × K) × (K × K))) :
    intLinIncR2 eps A b cons bounds (hist.foldl (fun st c => c.after eps st) []) =
      intLinIncR2 eps A b cons bounds [] := by
  suffices h : hist.foldl (fun st c => c.after eps st) [] = [] by rw [h]
  induction hist with
  | nil => rfl
  | cons c cs ih =>
      obtain ⟨h1, h2⟩ := hc
      have hst : c.after eps [] = [] := by
        cases c with
        | lineqs rows bounds =>
            cases bounds with
            | none => exact absurd rfl h1
            | some w => exact lineqs_window_state eps rows w []
        | r2 n A b cons bounds =>
            obtain ⟨v, hv⟩ := h1
            exact r2_state eps A b cons bounds [] v hv
      rw [hst] at h2
      rw [List.foldl_cons, hst]
      exact ih h2

/-- A clean history with both kinds of calls. -/
example : AllClean (0 : ℚ) [.lineqs [((1, 0), 0)] (some ((-1, -1), (1, 1))),
    .r2 1 (fun _ => ![⟨.classical, 1, 1⟩, ⟨.classical, 1, 1⟩]) (fun _ => ⟨.classical, 0, 1⟩) .uni none] [] := by
  refine ⟨by simp [Call.Clean], ?_, trivial⟩
  have h : Call.after (0 : ℚ) (.lineqs [((1, 0), 0)] (some ((-1, -1), (1, 1)))) [] = [] := by decide +kernel
  rw [h]
  have : orthVerticesOf (intLinIncR2 (0 : ℚ) (fun _ : Fin 1 => ![⟨.classical, 1, 1⟩, ⟨.classical, 1, 1⟩])
      (fun _ => ⟨.classical, 0, 1⟩) .uni none []) ≠ [] := by decide +kernel
  unfold Call.Clean
  dsimp only
  unfold orthVerticesOf at this
  cases hr : (intLinIncR2 (0 : ℚ) (fun _ : Fin 1 => ![⟨.classical, 1, 1⟩, ⟨.classical, 1, 1⟩])
      (fun _ => ⟨.classical, 0, 1⟩) .uni none []).1 with
  | ok v => exact ⟨v, rfl⟩
  | error e => rw [hr] at this; exact absurd rfl this

/-! ## The automatic window -/

/-- C73, full statement: for a system with at least two solutions `lineqs` without a window returns normally with
more than one vertex, so that the picture is neither missing nor reduced to a point. -/
def C73_statement (eps : K) (S : List (Ineq2 K)) : Prop :=
  (∃ x y, x ≠ y ∧ Sat2 S x ∧ Sat2 S y) → ∃ V, (lineqs eps S none []).1 = .ok V ∧ 1 < V.length

/-- Error of a call, for evaluation. -/
def raises {α : Type*} (e : Err) (r : Hist ℚ α) : Bool :=
  match r.1 with
  | .ok _ => false
  | .error e' => e == e'

/-- C73: false.  For the quarter-plane `x ≥ 0`, `y ≥ 0` the window chosen is the single point `(0, 0)`, and one
vertex is returned. -/
theorem C73_window_false :
    verticesOf (lineqs (1 / 10 ^ 301 : ℚ) [((1, 0), 0), ((0, 1), 0)] none []) = [(0, 0)] ∧
    ¬ C73_statement (1 / 10 ^ 301 : ℚ) [((1, 0), 0), ((0, 1), 0)] := by
  have h1 : verticesOf (lineqs (1 / 10 ^ 301 : ℚ) [((1, 0), 0), ((0, 1), 0)] none []) = [(0, 0)] := by
    decide +kernel
  refine ⟨h1, fun h => ?_⟩
  obtain ⟨v, hr, this⟩ := h ⟨(0, 0), (1, 1), by simp, by
    intro r hr; simp only [List.mem_cons, List.not_mem_nil, or_false] at hr
    rcases hr with rfl | rfl <;> norm_num [dot2], by
    intro r hr; simp only [List.mem_cons, List.not_mem_nil, or_false] at hr
    rcases hr with rfl | rfl <;> norm_num [dot2]⟩
  unfold verticesOf at h1
  rw [hr] at h1
  change v = [(0, 0)] at h1
  rw [h1] at this
  exact absurd this (by simp)

/-- C73: false in a second way.  The cone `x - 100 y ≥ 100`, `x + 100 y ≥ 100` contains `(100, 0)`, but the window
is centred near the origin and does not meet it: `IndexError`. -/
theorem C73_cone_false :
    raises .indexError (lineqs (1 / 10 ^ 301 : ℚ) [((1, -100), 100), ((1, 100), 100)] none []) = true ∧
    ¬ C73_statement (1 / 10 ^ 301 : ℚ) [((1, -100), 100), ((1, 100), 100)] := by
  have h1 : raises .indexError (lineqs (1 / 10 ^ 301 : ℚ) [((1, -100), 100), ((1, 100), 100)] none []) = true := by
    decide +kernel
  refine ⟨h1, fun h => ?_⟩
  obtain ⟨v, hr, this⟩ := h ⟨(100, 0), (200, 1), by simp, by
    intro r hr; simp only [List.mem_cons, List.not_mem_nil, or_false] at hr
    rcases hr with rfl | rfl <;> norm_num [dot2], by
    intro r hr; simp only [List.mem_cons, List.not_mem_nil, or_false] at hr
    rcases hr with rfl | rfl <;> norm_num [dot2]⟩
  unfold raises at h1
  rw [hr] at h1
  cases h1

theorem foldl_min_le (ps : List (K × K)) (p : K × K) :
    ((ps.foldl (fun m q => (min m.1 q.1, min m.2 q.2)) p).1 ≤ p.1 ∧
      (ps.foldl (fun m q => (min m.1 q.1, min m.2 q.2)) p).2 ≤ p.2) ∧
    ∀ q ∈ ps, (ps.foldl (fun m q => (min m.1 q.1, min m.2 q.2)) p).1 ≤ q.1 ∧
      (ps.foldl (fun m q => (min m.1 q.1, min m.2 q.2)) p).2 ≤ q.2 := by
  induction ps generalizing p with
  | nil => exact ⟨⟨le_rfl, le_rfl⟩, fun q hq => by cases hq⟩
  | cons q ps ih =>
      have h := ih (min p.1 q.1, min p.2 q.2)
      refine ⟨⟨h.1.1.trans (min_le_left _ _), h.1.2.trans (min_le_left _ _)⟩, fun r hr => ?_⟩
      rcases List.mem_cons.1 hr with rfl | hr
      · exact ⟨h.1.1.trans (min_le_right _ _), h.1.2.trans (min_le_right _ _)⟩
      · exact h.2 r hr

theorem le_foldl_max (ps : List (K × K)) (p : K × K) :
    (p.1 ≤ (ps.foldl (fun m q => (max m.1 q.1, max m.2 q.2)) p).1 ∧
      p.2 ≤ (ps.foldl (fun m q => (max m.1 q.1, max m.2 q.2)) p).2) ∧
    ∀ q ∈ ps, q.1 ≤ (ps.foldl (fun m q => (max m.1 q.1, max m.2 q.2)) p).1 ∧
      q.2 ≤ (ps.foldl (fun m q => (max m.1 q.1, max m.2 q.2)) p).2 := by
  induction ps generalizing p with
  | nil => exact ⟨⟨le_rfl, le_rfl⟩, fun q hq => by cases hq⟩
  | cons q ps ih =>
      have h := ih (max p.1 q.1, max p.2 q.2)
      refine ⟨⟨(le_max_left _ _).trans h.1.1, (le_max_left _ _).trans h.1.2⟩, fun r hr => ?_⟩
      rcases List.mem_cons.1 hr with rfl | hr
      · exact ⟨(le_max_right _ _).trans h.1.1, (le_max_right _ _).trans h.1.2⟩
      · exact h.2 r hr

theorem ptsMin_le {P : List (K × K)} {q : K × K} (hq : q ∈ P) : (ptsMin P).1 ≤ q.1 ∧ (ptsMin P).2 ≤ q.2 := by
  cases P with
  | nil => cases hq
  | cons p ps =>
      rcases List.mem_cons.1 hq with rfl | hq
      · exact (foldl_min_le ps q).1
      · exact (foldl_min_le ps p).2 q hq

theorem le_ptsMax {P : List (K × K)} {q : K × K} (hq : q ∈ P) : q.1 ≤ (ptsMax P).1 ∧ q.2 ≤ (ptsMax P).2 := by
  cases P with
  | nil => cases hq
  | cons p ps =>
      rcases List.mem_cons.1 hq with rfl | hq
      · exact (le_foldl_max ps q).1
      · exact (le_foldl_max ps p).2 q hq

theorem autoWindow_spec {P : List (K × K)} {q : K × K} (hq : q ∈ P) :
    ((autoWindow P).1.1 ≤ q.1 ∧ (autoWindow P).1.2 ≤ q.2) ∧ q.1 ≤ (autoWindow P).2.1 ∧ q.2 ≤ (autoWindow P).2.2 := by
  have h1 := ptsMin_le hq
  have h2 := le_ptsMax hq
  have h3 := le_max_left (((ptsMax P).1 - (ptsMin P).1) / 2) (((ptsMax P).2 - (ptsMin P).2) / 2)
  have h4 := le_max_right (((ptsMax P).1 - (ptsMin P).1) / 2) (((ptsMax P).2 - (ptsMin P).2) / 2)
  unfold autoWindow centerRm
  dsimp only
  set rm := max (((ptsMax P).1 - (ptsMin P).1) / 2) (((ptsMax P).2 - (ptsMin P).2) / 2)
  exact ⟨⟨by linarith, by linarith⟩, by linarith, by linarith⟩

/-- C73, partial: the automatic window contains every particular point; so when the foot of the perpendicular to
some edge is a solution, the system with the window still has that solution, boundary intervals are found for it
and drawing does not fail at their first row.  Missing: sets whose edges do not contain the foot
(`C73_cone_false`) and windows reduced to a point (`C73_window_false`). -/
theorem C73_window_partial (eps : K) (S : List (Ineq2 K)) (hS : ∀ r ∈ S, dot2 r.1 r.1 ≠ 0) (E : List (Edge K))
    (hinf : ∃ e ∈ E, e.start = none) (e : Edge K) (he : e ∈ E)
    (r : Ineq2 K) (hr : S[e.row]? = some r) (hfoot : Sat2 S (foot r)) :
    Sat2 (S ++ windowRows (autoWindow (particularPoints S E).1).1 (autoWindow (particularPoints S E).1).2) (foot r) ∧
    ∃ e' E', boundaryIntervals eps (S ++ windowRows (autoWindow (particularPoints S E).1).1
      (autoWindow (particularPoints S E).1).2) = .ok (some (e' :: E')) := by
  have hany : (E.any fun e => e.start.isNone) = true := by
    obtain ⟨e', h1, h2⟩ := hinf
    exact List.any_eq_true.2 ⟨e', h1, by rw [h2]; rfl⟩
  have hmem : foot r ∈ (particularPoints S E).1 := by
    unfold particularPoints
    rw [if_pos hany]
    exact List.mem_filterMap.2 ⟨e, he, by rw [hr]; rfl⟩
  have hw := autoWindow_spec hmem
  set w := autoWindow (particularPoints S E).1
  have hsat : Sat2 (S ++ windowRows w.1 w.2) (foot r) := by
    intro q hq
    rcases List.mem_append.1 hq with hq | hq
    · exact hfoot q hq
    · simp only [windowRows, List.mem_cons, List.not_mem_nil, or_false] at hq
      rcases hq with rfl | rfl | rfl | rfl <;> simp only [dot2]
      · linarith [hw.1.1]
      · linarith [hw.1.2]
      · linarith [hw.2.1]
      · linarith [hw.2.2]
  have hnz : ∀ q ∈ S ++ windowRows w.1 w.2, dot2 q.1 q.1 ≠ 0 := by
    intro q hq
    rcases List.mem_append.1 hq with hq | hq
    · exact hS q hq
    · simp only [windowRows, List.mem_cons, List.not_mem_nil, or_false] at hq
      rcases hq with rfl | rfl | rfl | rfl <;> simp [dot2]
  have hne : S ++ windowRows w.1 w.2 ≠ [] := by simp [windowRows]
  refine ⟨hsat, ?_⟩
  have hcontra := mt (C50_empty_iff eps _ hnz hne).1 (fun h => h _ hsat)
  obtain ⟨o, ho⟩ := C50_total eps _ hnz
  rw [ho] at hcontra ⊢
  cases o with
  | none => exact absurd (Or.inl rfl) hcontra
  | some E' =>
      cases E' with
      | nil => exact absurd (Or.inr rfl) hcontra
      | cons e' E' => exact ⟨e', E', rfl⟩

/-- The half-plane `x ≥ 1`: its edge is infinite and contains the foot `(1, 0)`. -/
example : Sat2 [(((1 : ℚ), 0), 1)] (foot ((1, 0), 1)) := by
  intro r hr
  rw [List.mem_singleton.1 hr]
  norm_num [foot, dot2]

end IntvalPy
