import Verif.PropsVertices
import Verif.PropsOrthant

/-!
# The polygons returned by IntLinIncR2 (C82)
-/

set_option autoImplicit false
set_option linter.unusedSectionVars false

namespace IntvalPy

open Spec

variable {K : Type*} [Field K] [LinearOrder K] [FloorRing K] [IsStrictOrderedRing K]

/-- The part of the solution set in one orthant of the plane. -/
def Part {n : Nat} (A : Fin n → Fin 2 → Iv K) (b : Fin n → Iv K) (cons : Consistency) (ort : Fin 2 → Bool)
    (p : K × K) : Prop := InOrthant ort ![p.1, p.2] ∧ SolSet A b cons ![p.1, p.2]

/-- `V` is the list of the vertices of `P` in clockwise order, rounded to twelve decimals (empty for an empty
set). -/
def Listed (P : K × K → Prop) (V : List (K × K)) : Prop := ∃ C, VertexList P C ∧ V = C.map round12

/-- What is drawn of `P`: all of it if it is bounded, otherwise the part in the window. -/
def Drawn (lo hi : K × K) (P : K × K → Prop) (x : K × K) : Prop :=
  P x ∧ (BoundedSet P ∨ (lo.1 ≤ x.1 ∧ lo.2 ≤ x.2 ∧ x.1 ≤ hi.1 ∧ x.2 ≤ hi.2))

/-- Ordinary intervals whose endpoints have at most twelve decimals and are not tiny; in every row some
coefficient has two nonzero endpoints. -/
def NiceSystem {n : Nat} (A : Fin n → Fin 2 → Iv K) (b : Fin n → Iv K) : Prop :=
  (∀ i k, (A i k).a ≤ (A i k).b ∧ (OnGrid (A i k).a ∧ ((A i k).a = 0 ∨ 1 / 10 ^ 12 < |(A i k).a|)) ∧
    OnGrid (A i k).b ∧ ((A i k).b = 0 ∨ 1 / 10 ^ 12 < |(A i k).b|)) ∧
  (∀ i, (b i).a ≤ (b i).b ∧ OnGrid (b i).a ∧ OnGrid (b i).b) ∧ ∀ i, ∃ k, (A i k).a ≠ 0 ∧ (A i k).b ≠ 0

theorem vertexList_empty {P : K × K → Prop} (h : ∀ x, ¬ P x) : VertexList P [] :=
  ⟨List.nodup_nil, fun v => ⟨(fun hv => by cases hv), fun hv => absurd hv.1 (h v)⟩, fun _ => List.isChain_nil⟩

/-- `lineqs` on a set without points. -/
theorem lineqs_empty (S : List (Ineq2 K)) (hS : ∀ r ∈ S, ExactRow (toIneq r))
    (hz : ∀ r ∈ S, r.1 = (0, 0) → r.2 ≤ 0) (he : ∀ x, ¬ Sat2 S x) (bounds : Option ((K × K) × (K × K)))
    (st : List K) : lineqs 0 S bounds st = (.ok [], st) := by
  set T := S.filter fun r => decide (dot2 r.1 r.1 ≠ 0) with hT
  have hsat : Sat2 T = Sat2 S := sat2_filter hz
  have hTn : ∀ r ∈ T, dot2 r.1 r.1 ≠ 0 := fun r hr => by simpa using (List.mem_filter.1 hr).2
  have hne : T ≠ [] := by
    intro h0
    refine he (0, 0) ?_
    rw [← hsat, h0]
    intro r hr
    cases hr
  unfold lineqs
  dsimp only
  rw [lineqs_rows hS, ← hT]
  rcases (C50_empty_iff 0 T hTn hne).2 (hsat ▸ he) with h | h <;> rw [h]

/-- `lineqs` with a window lists what is drawn. -/
theorem lineqs_window_listed (S : List (Ineq2 K)) (hS : ∀ r ∈ S, ExactRow (toIneq r))
    (hz : ∀ r ∈ S, r.1 = (0, 0) → r.2 ≤ 0) (hnz : ∃ r ∈ S, r.1 ≠ (0, 0)) (lo hi : K × K) (st : List K)
    (hsep : Separated (Drawn lo hi (Sat2 S))) (hne : (∃ x, Sat2 S x) → ∃ x, Drawn lo hi (Sat2 S) x) :
    ∃ V, lineqs 0 S (some (lo, hi)) st = (.ok V, st) ∧ Listed (Drawn lo hi (Sat2 S)) V := by
  by_cases he : ∃ x, Sat2 S x
  · by_cases hb : BoundedSet (Sat2 S)
    · have hD : Drawn lo hi (Sat2 S) = Sat2 S := by
        funext x
        exact propext ⟨fun h => h.1, fun h => ⟨h, Or.inl hb⟩⟩
      rw [hD] at hsep ⊢
      obtain ⟨C, hC, h⟩ := C81_all_vertices_partial S hS hz he hb hsep (some (lo, hi)) st
      exact ⟨_, h, C, hC, rfl⟩
    · have hD : Drawn lo hi (Sat2 S) = Shown (Sat2 S) lo hi := by
        funext x
        exact propext ⟨fun h => ⟨h.1, h.2.resolve_left hb⟩, fun h => ⟨h.1, Or.inr h.2⟩⟩
      rw [hD] at hsep hne ⊢
      obtain ⟨c, hc⟩ := hne he
      obtain ⟨C, hC, h⟩ := (C81_window_partial S hS hz hb hnz c hc.1 st).1 lo hi hc.2.1 hc.2.2.1 hc.2.2.2.1 hc.2.2.2.2 hsep
      exact ⟨_, h, C, hC, rfl⟩
  · push Not at he
    exact ⟨[], lineqs_empty S hS hz he _ st, [], vertexList_empty fun x h => he x h.1, rfl⟩

/-- `lineqs` without a window lists a bounded set. -/
theorem lineqs_bounded_listed (S : List (Ineq2 K)) (hS : ∀ r ∈ S, ExactRow (toIneq r))
    (hz : ∀ r ∈ S, r.1 = (0, 0) → r.2 ≤ 0) (st : List K) (hb : BoundedSet (Sat2 S))
    (hsep : Separated (Sat2 S)) : ∃ V, lineqs 0 S none st = (.ok V, st) ∧ Listed (Sat2 S) V := by
  by_cases he : ∃ x, Sat2 S x
  · obtain ⟨C, hC, h⟩ := C81_all_vertices_partial S hS hz he hb hsep none st
    exact ⟨_, h, C, hC, rfl⟩
  · push Not at he
    exact ⟨[], lineqs_empty S hS hz he _ st, [], vertexList_empty he, rfl⟩

theorem onGrid_neg {x : K} (h : OnGrid x) : OnGrid (-x) := by
  obtain ⟨z, rfl⟩ := h
  exact ⟨-z, by rw [Int.cast_neg, neg_div]⟩

/-- The rows as rows of the plane. -/
def planeRows (S : List (Ineq K 2)) : List (Ineq2 K) := S.map fun r => ((r.1 0, r.1 1), r.2)

theorem toIneq_plane (r : Ineq K 2) : toIneq (((r.1 0, r.1 1), r.2) : Ineq2 K) = r := by
  refine Prod.ext (funext fun j => ?_) rfl
  fin_cases j <;> rfl

theorem sat2_planeRows (S : List (Ineq K 2)) (x : K × K) : Sat2 (planeRows S) x ↔ Satisfies S ![x.1, x.2] := by
  rw [sat2_iff, planeRows, List.map_map]
  rw [show toIneq ∘ (fun r : Ineq K 2 => (((r.1 0, r.1 1), r.2) : Ineq2 K)) = id from funext toIneq_plane,
    List.map_id]

/-- The system of one orthant: its rows are kept exactly and describe the part of the solution set. -/
theorem orthant_nice {n : Nat} {A : Fin n → Fin 2 → Iv K} {b : Fin n → Iv K} (h : NiceSystem A b)
    {cons : Consistency} (hc : cons ≠ .other) (ort : Fin 2 → Bool) :
    ∃ rows, orthantRows id A b ort cons = .ok rows ∧ (∀ r ∈ planeRows rows, ExactRow (toIneq r)) ∧
      (∀ r ∈ planeRows rows, r.1 ≠ (0, 0)) ∧ planeRows rows ≠ [] ∧ Sat2 (planeRows rows) = Part A b cons ort := by
  obtain ⟨hA, hb, hnz⟩ := h
  have hgood : ∀ rows, orthantRows id A b ort cons = .ok rows → ∀ r ∈ rows, ExactRow r ∧ ∃ j, r.1 j ≠ 0 := by
    have ea : ∀ i k, (OnGrid (orthDual A ort i k).a ∧ ((orthDual A ort i k).a = 0 ∨ 1 / 10 ^ 12 < |(orthDual A ort i k).a|))
        ∧ OnGrid (orthDual A ort i k).b ∧ ((orthDual A ort i k).b = 0 ∨ 1 / 10 ^ 12 < |(orthDual A ort i k).b|) := by
      intro i k
      rw [(orthDual_ends A ort i k).1, (orthDual_ends A ort i k).2]
      obtain ⟨-, h1, h2⟩ := hA i k
      split_ifs
      · exact ⟨h1, h2⟩
      · exact ⟨h2, h1⟩
    have en : ∀ i, ∃ k, (orthDual A ort i k).a ≠ 0 ∧ (orthDual A ort i k).b ≠ 0 := by
      intro i
      obtain ⟨k, h1, h2⟩ := hnz i
      refine ⟨k, ?_⟩
      rw [(orthDual_ends A ort i k).1, (orthDual_ends A ort i k).2]
      split_ifs
      · exact ⟨h1, h2⟩
      · exact ⟨h2, h1⟩
    have neg' : ∀ x : K, OnGrid x ∧ (x = 0 ∨ 1 / 10 ^ 12 < |x|) → OnGrid (-x) ∧ (-x = 0 ∨ 1 / 10 ^ 12 < |-x|) :=
      fun x hx => ⟨onGrid_neg hx.1, by rw [neg_eq_zero, abs_neg]; exact hx.2⟩
    have sgn : ∀ k j : Fin 2, OnGrid (if j = k then (if ort k then (1 : K) else -1) else 0) ∧
        ((if j = k then (if ort k then (1 : K) else -1) else 0) = 0 ∨
          1 / 10 ^ 12 < |(if j = k then (if ort k then (1 : K) else -1) else 0)|) := by
      intro k j
      have h1 : OnGrid (1 : K) := by simpa using onGrid_int (K := K) 1
      split_ifs
      · exact ⟨h1, Or.inr (by norm_num)⟩
      · exact ⟨onGrid_neg h1, Or.inr (by norm_num)⟩
      · exact ⟨by simpa using onGrid_int (K := K) 0, Or.inl rfl⟩
    have sgn0 : ∀ k : Fin 2, (if k = k then (if ort k then (1 : K) else -1) else 0) ≠ 0 := by
      intro k
      rw [if_pos rfl]
      split_ifs <;> norm_num
    have h0 : OnGrid (0 : K) := by simpa using onGrid_int (K := K) 0
    intro rows hr
    cases cons with
    | other => exact absurd rfl hc
    | uni =>
        injection hr with hr
        subst hr
        intro r hr
        simp only [List.mem_append, List.mem_ofFn, id] at hr
        rcases hr with (⟨i, rfl⟩ | ⟨i, rfl⟩) | ⟨k, rfl⟩
        · obtain ⟨k, h1, -⟩ := en i
          exact ⟨⟨fun j => neg' _ (ea i j).1, onGrid_neg (hb i).2.2⟩, k, neg_ne_zero.2 h1⟩
        · obtain ⟨k, -, h2⟩ := en i
          exact ⟨⟨fun j => neg' _ (neg' _ (ea i j).2), onGrid_neg (onGrid_neg (hb i).2.1)⟩, k,
            neg_ne_zero.2 (neg_ne_zero.2 h2)⟩
        · exact ⟨⟨sgn k, h0⟩, k, sgn0 k⟩
    | tol =>
        injection hr with hr
        subst hr
        intro r hr
        simp only [List.mem_append, List.mem_ofFn, id] at hr
        rcases hr with (⟨i, rfl⟩ | ⟨i, rfl⟩) | ⟨k, rfl⟩
        · obtain ⟨k, h1, -⟩ := en i
          exact ⟨⟨fun j => neg' _ (neg' _ (ea i j).1), onGrid_neg (onGrid_neg (hb i).2.1)⟩, k,
            neg_ne_zero.2 (neg_ne_zero.2 h1)⟩
        · obtain ⟨k, -, h2⟩ := en i
          exact ⟨⟨fun j => neg' _ (ea i j).2, onGrid_neg (hb i).2.2⟩, k, neg_ne_zero.2 h2⟩
        · exact ⟨⟨sgn k, h0⟩, k, sgn0 k⟩
  have hex : ∃ rows, orthantRows id A b ort cons = .ok rows ∧ rows ≠ [] := by
    cases cons with
    | other => exact absurd rfl hc
    | uni => exact ⟨_, rfl, by simp⟩
    | tol => exact ⟨_, rfl, by simp⟩
  obtain ⟨rows, hrows, hrne⟩ := hex
  refine ⟨rows, hrows, fun r hr => ?_, fun r hr h0 => ?_, by simpa [planeRows] using hrne, ?_⟩
  · obtain ⟨r', hr', rfl⟩ := List.mem_map.1 hr
    rw [toIneq_plane]
    exact (hgood rows hrows r' hr').1
  · obtain ⟨r', hr', rfl⟩ := List.mem_map.1 hr
    obtain ⟨j, hj⟩ := (hgood rows hrows r' hr').2
    dsimp only at h0
    injection h0 with h1 h2
    fin_cases j
    · exact hj h1
    · exact hj h2
  · funext x
    rw [sat2_planeRows]
    exact propext (C48_plane A b (fun i k => (hA i k).1) (fun i => (hb i).1) ort cons rows hrows _)

/-- The local function `algo` with a window. -/
theorem algo2_window {n : Nat} {A : Fin n → Fin 2 → Iv K} {b : Fin n → Iv K} (h : NiceSystem A b)
    {cons : Consistency} (hc : cons ≠ .other) (lo hi : K × K) (os : List (Fin 2 → Bool)) (st : List K)
    (hsep : ∀ ort ∈ os, Separated (Drawn lo hi (Part A b cons ort)))
    (hne : ∀ ort ∈ os, (∃ x, Part A b cons ort x) → ∃ x, Drawn lo hi (Part A b cons ort) x) :
    ∃ Vs, algo2 0 A b cons (some (lo, hi)) os st = (.ok Vs, st) ∧
      List.Forall₂ (fun ort V => Listed (Drawn lo hi (Part A b cons ort)) V) os Vs := by
  induction os with
  | nil => exact ⟨[], rfl, .nil⟩
  | cons o os ih =>
      obtain ⟨Vs, hVs, hF⟩ := ih (fun ort ho => hsep ort (List.mem_cons_of_mem _ ho))
        fun ort ho => hne ort (List.mem_cons_of_mem _ ho)
      obtain ⟨rows, hrows, hex, hnz, hn0, hsat⟩ := orthant_nice h hc o
      obtain ⟨r0, hr0⟩ := List.exists_mem_of_ne_nil _ hn0
      obtain ⟨V, hV, hL⟩ := lineqs_window_listed (planeRows rows) hex (fun r hr h0 => absurd h0 (hnz r hr))
        ⟨r0, hr0, hnz r0 hr0⟩ lo hi st (hsat ▸ hsep o List.mem_cons_self) (hsat ▸ hne o List.mem_cons_self)
      refine ⟨V :: Vs, ?_, .cons (hsat ▸ hL) hF⟩
      unfold algo2
      rw [hrows]
      dsimp only
      rw [show (rows.map fun r => (((r.1 0, r.1 1), r.2) : Ineq2 K)) = planeRows rows from rfl, hV]
      dsimp only
      rw [hVs]

/-- The local function `algo` without a window, when every part is bounded. -/
theorem algo2_bounded {n : Nat} {A : Fin n → Fin 2 → Iv K} {b : Fin n → Iv K} (h : NiceSystem A b)
    {cons : Consistency} (hc : cons ≠ .other) (os : List (Fin 2 → Bool)) (st : List K)
    (hb : ∀ ort ∈ os, BoundedSet (Part A b cons ort)) (hsep : ∀ ort ∈ os, Separated (Part A b cons ort)) :
    ∃ Vs, algo2 0 A b cons none os st = (.ok Vs, st) ∧
      List.Forall₂ (fun ort V => Listed (Part A b cons ort) V) os Vs := by
  induction os with
  | nil => exact ⟨[], rfl, .nil⟩
  | cons o os ih =>
      obtain ⟨Vs, hVs, hF⟩ := ih (fun ort ho => hb ort (List.mem_cons_of_mem _ ho))
        fun ort ho => hsep ort (List.mem_cons_of_mem _ ho)
      obtain ⟨rows, hrows, hex, hnz, hn0, hsat⟩ := orthant_nice h hc o
      obtain ⟨V, hV, hL⟩ := lineqs_bounded_listed (planeRows rows) hex (fun r hr h0 => absurd h0 (hnz r hr))
        st (hsat ▸ hb o List.mem_cons_self) (hsat ▸ hsep o List.mem_cons_self)
      refine ⟨V :: Vs, ?_, .cons (hsat ▸ hL) hF⟩
      unfold algo2
      rw [hrows]
      dsimp only
      rw [show (rows.map fun r => (((r.1 0, r.1 1), r.2) : Ineq2 K)) = planeRows rows from rfl, hV]
      dsimp only
      rw [hVs]

/-- C82, full statement: for a system of ordinary intervals whose solution set is bounded, `IntLinIncR2`
returns for each of the four orthants the vertices of the part of the solution set in it. -/
def C82_statement (eps : K) {n : Nat} (A : Fin n → Fin 2 → Iv K) (b : Fin n → Iv K) (cons : Consistency) : Prop :=
  (∀ ort, BoundedSet (Part A b cons ort)) → ∃ Vs, intLinIncR2 eps A b cons none [] = (.ok Vs, []) ∧
    List.Forall₂ (fun ort V => Listed (Part A b cons ort) V) orthants2 Vs

/-- C82 (bounded sets): under `NiceSystem`, if the solution set is bounded and in each orthant its vertices are
more than `1e-8` apart, `IntLinIncR2` returns for each of the four orthants exactly the vertices of the part of
the (united or tolerable) solution set in it, in clockwise order and rounded to twelve decimals. -/
theorem C82_bounded_partial {n : Nat} (A : Fin n → Fin 2 → Iv K) (b : Fin n → Iv K) (h : NiceSystem A b)
    (cons : Consistency) (hc : cons ≠ .other) (hb : ∀ ort, BoundedSet (Part A b cons ort))
    (hsep : ∀ ort, Separated (Part A b cons ort)) :
    ∃ Vs, intLinIncR2 0 A b cons none [] = (.ok Vs, []) ∧
      List.Forall₂ (fun ort V => Listed (Part A b cons ort) V) orthants2 Vs := by
  obtain ⟨Vs, hVs, hF⟩ := algo2_bounded h hc orthants2 [] (fun ort _ => hb ort) fun ort _ => hsep ort
  refine ⟨Vs, ?_, hF⟩
  unfold intLinIncR2
  rw [hVs]
  rfl

/-- C82 (window given): the bounded parts are listed completely, of the unbounded ones the part in the window,
provided that the window meets them. -/
theorem C82_window_partial {n : Nat} (A : Fin n → Fin 2 → Iv K) (b : Fin n → Iv K) (h : NiceSystem A b)
    (cons : Consistency) (hc : cons ≠ .other) (lo hi : K × K)
    (hsep : ∀ ort, Separated (Drawn lo hi (Part A b cons ort)))
    (hne : ∀ ort, (∃ x, Part A b cons ort x) → ∃ x, Drawn lo hi (Part A b cons ort) x) :
    ∃ Vs, intLinIncR2 0 A b cons (some (lo, hi)) [] = (.ok Vs, []) ∧
      List.Forall₂ (fun ort V => Listed (Drawn lo hi (Part A b cons ort)) V) orthants2 Vs := by
  obtain ⟨Vs, hVs, hF⟩ := algo2_window h hc lo hi orthants2 [] (fun ort _ => hsep ort) fun ort _ => hne ort
  refine ⟨Vs, ?_, hF⟩
  unfold intLinIncR2
  rw [hVs]
  rfl

/-- A successful call of `lineqs` without a window: a bounded set, or the history gets a number that bounds the
coordinates of some point of the set. -/
theorem lineqs_none_ok {S : List (Ineq2 K)} (hS : ∀ r ∈ S, ExactRow (toIneq r))
    (hz : ∀ r ∈ S, r.1 = (0, 0) → r.2 ≤ 0) (hnz : ∃ r ∈ S, r.1 ≠ (0, 0)) {st st' : List K} {V : List (K × K)}
    (h : lineqs 0 S none st = (.ok V, st')) :
    (∀ m ∈ st, m ∈ st') ∧ (BoundedSet (Sat2 S) ∨ ∃ m ∈ st', ∃ x, Sat2 S x ∧ |x.1| ≤ m ∧ |x.2| ≤ m) := by
  by_cases he : ∃ c, Sat2 S c
  swap
  · push Not at he
    rw [lineqs_empty S hS hz he none st] at h
    injection h with h1 h2
    subst h2
    exact ⟨fun _ hm => hm, Or.inl ⟨0, fun x hx => absurd hx (he x)⟩⟩
  obtain ⟨c, hc⟩ := he
  set T := S.filter fun r => decide (dot2 r.1 r.1 ≠ 0) with hT
  have hsat : Sat2 T = Sat2 S := sat2_filter hz
  have hTn : ∀ r ∈ T, dot2 r.1 r.1 ≠ 0 := fun r hr => by simpa using (List.mem_filter.1 hr).2
  have hne : T ≠ [] := by
    obtain ⟨r, hr, h0⟩ := hnz
    intro hnil
    have : r ∈ T := by
      rw [hT, List.mem_filter, decide_eq_true_eq]
      refine ⟨hr, fun hd => h0 ?_⟩
      have a := mul_self_nonneg r.1.1
      have b := mul_self_nonneg r.1.2
      simp only [dot2] at hd
      exact Prod.ext (mul_self_eq_zero.1 (by linarith)) (mul_self_eq_zero.1 (by linarith))
    rw [hnil] at this
    cases this
  have hsatc : Sat2 T c := hsat ▸ hc
  unfold lineqs at h
  dsimp only at h
  rw [lineqs_rows hS, ← hT] at h
  obtain ⟨o, ho⟩ := C50_total 0 T hTn
  have hempty := C50_empty_iff 0 T hTn hne
  cases o with
  | none => exact absurd hsatc (hempty.1 (Or.inl ho) c)
  | some E =>
      have hE : E ≠ [] := by
        rintro rfl
        exact hempty.1 (Or.inr ho) c hsatc
      rw [ho] at h
      obtain ⟨e0, E0, rfl⟩ := List.exists_cons_of_ne_nil hE
      dsimp only at h
      by_cases hinf : ((e0 :: E0).any fun e => e.start.isNone) = true
      · have hpp : (particularPoints T (e0 :: E0)).2 = true := by
          unfold particularPoints
          rw [if_pos hinf]
        rw [if_pos hpp] at h
        set P := (particularPoints T (e0 :: E0)).1
        injection h with h1 h2
        subst h2
        refine ⟨fun m hm => List.mem_append_left _ hm, Or.inr ⟨_, List.mem_append_right _ List.mem_cons_self, ?_⟩⟩
        set w := autoWindow P with hw
        have hTw : ∀ r ∈ T ++ windowRows w.1 w.2, dot2 r.1 r.1 ≠ 0 := fun r hr =>
          (List.mem_append.1 hr).elim (hTn r) (windowRows_nz r)
        have hx : ∃ x, Sat2 (T ++ windowRows w.1 w.2) x := by
          by_contra hno
          push Not at hno
          rcases (C50_empty_iff 0 _ hTw (by simp [windowRows])).2 hno with h0 | h0 <;> rw [h0] at h1 <;> cases h1
        obtain ⟨x, hx⟩ := hx
        rw [sat2_shown, hsat] at hx
        obtain ⟨hx, x1, x2, x3, x4⟩ := hx
        simp only [hw, autoWindow] at x1 x2 x3 x4
        refine ⟨x, hx, le_trans ?_ (le_max_left _ _), le_trans ?_ (le_max_right _ _)⟩
        · have a1 := le_abs_self (centerRm P).1.1
          have a2 := neg_abs_le (centerRm P).1.1
          exact abs_le.2 ⟨by linarith, by linarith⟩
        · have a1 := le_abs_self (centerRm P).1.2
          have a2 := neg_abs_le (centerRm P).1.2
          exact abs_le.2 ⟨by linarith, by linarith⟩
      · have hpp : ¬ (particularPoints T (e0 :: E0)).2 = true := by
          unfold particularPoints
          rw [if_neg hinf]
          exact Bool.false_ne_true
        rw [if_neg hpp] at h
        injection h with h1 h2
        subst h2
        refine ⟨fun _ hm => hm, Or.inl (hsat ▸ bounded_of_starts' hTn hsatc ho hE fun e he => ?_)⟩
        rw [List.any_eq_true] at hinf
        push Not at hinf
        have := hinf e he
        cases h : e.start with
        | none => rw [h] at this; exact absurd rfl this
        | some _ => rfl

theorem algo2_none_ok {n : Nat} {A : Fin n → Fin 2 → Iv K} {b : Fin n → Iv K} (h : NiceSystem A b)
    {cons : Consistency} (hc : cons ≠ .other) (os : List (Fin 2 → Bool)) (st st' : List K)
    (Vs : List (List (K × K))) (hr : algo2 0 A b cons none os st = (.ok Vs, st')) :
    (∀ m ∈ st, m ∈ st') ∧ ∀ ort ∈ os, BoundedSet (Part A b cons ort) ∨
      ∃ m ∈ st', ∃ x, Part A b cons ort x ∧ |x.1| ≤ m ∧ |x.2| ≤ m := by
  induction os generalizing st Vs with
  | nil =>
      injection hr with h1 h2
      subst h2
      exact ⟨fun _ hm => hm, fun ort ho => by cases ho⟩
  | cons o os ih =>
      obtain ⟨rows, hrows, hex, hnz, hn0, hsat⟩ := orthant_nice h hc o
      obtain ⟨r0, hr0⟩ := List.exists_mem_of_ne_nil _ hn0
      unfold algo2 at hr
      rw [hrows] at hr
      dsimp only at hr
      rw [show (rows.map fun r => (((r.1 0, r.1 1), r.2) : Ineq2 K)) = planeRows rows from rfl] at hr
      rcases hl : lineqs 0 (planeRows rows) none st with ⟨e | V, st1⟩
      · rw [hl] at hr; cases hr
      rw [hl] at hr
      dsimp only at hr
      rcases ha : algo2 0 A b cons none os st1 with ⟨e | Ws, st2⟩
      · rw [ha] at hr; cases hr
      rw [ha] at hr
      injection hr with h1 h2
      subst h2
      obtain ⟨i1, i2⟩ := ih st1 Ws ha
      obtain ⟨j1, j2⟩ := lineqs_none_ok hex (fun r hr h0 => absurd h0 (hnz r hr)) ⟨r0, hr0, hnz r0 hr0⟩ hl
      refine ⟨fun m hm => i1 m (j1 m hm), fun ort ho => ?_⟩
      rcases List.mem_cons.1 ho with rfl | ho
      · rw [hsat] at j2
        rcases j2 with j2 | ⟨m, hm, hx⟩
        · exact Or.inl j2
        · exact Or.inr ⟨m, i1 m hm, hx⟩
      · exact i2 ort ho

theorem foldl_max_ge (xs : List K) (x : K) : x ≤ xs.foldl max x ∧ ∀ y ∈ xs, y ≤ xs.foldl max x := by
  induction xs generalizing x with
  | nil => exact ⟨le_refl _, fun y hy => by cases hy⟩
  | cons z xs ih =>
      obtain ⟨h1, h2⟩ := ih (max x z)
      refine ⟨le_trans (le_max_left _ _) h1, fun y hy => ?_⟩
      rcases List.mem_cons.1 hy with rfl | hy
      · exact le_trans (le_max_right _ _) h1
      · exact h2 y hy

theorem le_listMax {st : List K} {m : K} (hm : m ∈ st) : m ≤ listMax st := by
  cases st with
  | nil => cases hm
  | cons x xs =>
      rcases List.mem_cons.1 hm with rfl | hm
      · exact (foldl_max_ge xs _).1
      · exact (foldl_max_ge xs x).2 m hm

/-- C82 (automatic window): if the first pass returns (it may raise, see C73) and some part is unbounded, there is
a square `[-mx, mx]²` meeting every unbounded part such that `IntLinIncR2` lists the bounded parts completely and of
the unbounded ones the part in the square. -/
theorem C82_auto_partial {n : Nat} (A : Fin n → Fin 2 → Iv K) (b : Fin n → Iv K) (h : NiceSystem A b)
    (cons : Consistency) (hc : cons ≠ .other) (Ws : List (List (K × K))) (st' : List K)
    (hr : algo2 0 A b cons none orthants2 [] = (.ok Ws, st')) (hub : ∃ ort ∈ orthants2, ¬ BoundedSet (Part A b cons ort)) :
    ∃ mx : K, (∀ ort ∈ orthants2, (∃ x, Part A b cons ort x) → ∃ x, Drawn (-mx, -mx) (mx, mx) (Part A b cons ort) x) ∧
      ((∀ ort, Separated (Drawn (-mx, -mx) (mx, mx) (Part A b cons ort))) →
        ∃ Vs, intLinIncR2 0 A b cons none [] = (.ok Vs, []) ∧
          List.Forall₂ (fun ort V => Listed (Drawn (-mx, -mx) (mx, mx) (Part A b cons ort)) V) orthants2 Vs) := by
  obtain ⟨-, hall⟩ := algo2_none_ok h hc orthants2 [] st' Ws hr
  have hne : ∀ ort ∈ orthants2, (∃ x, Part A b cons ort x) →
      ∃ x, Drawn (-listMax st', -listMax st') (listMax st', listMax st') (Part A b cons ort) x := by
    rintro ort ho ⟨x, hx⟩
    rcases hall ort ho with hb | ⟨m, hm, y, hy, y1, y2⟩
    · exact ⟨x, hx, Or.inl hb⟩
    · have hmx := le_listMax hm
      have a1 := abs_le.1 (y1.trans hmx)
      have a2 := abs_le.1 (y2.trans hmx)
      exact ⟨y, hy, Or.inr ⟨a1.1, a2.1, a1.2, a2.2⟩⟩
  refine ⟨listMax st', hne, fun hsep => ?_⟩
  obtain ⟨Vs, hVs, hF⟩ := algo2_window h hc (-listMax st', -listMax st') (listMax st', listMax st') orthants2 st'
    (fun ort _ => hsep ort) hne
  refine ⟨Vs, ?_, hF⟩
  have hlen : st'.length > 0 := by
    obtain ⟨ort, ho, hb⟩ := hub
    rcases hall ort ho with hb' | ⟨m, hm, -⟩
    · exact absurd hb' hb
    · exact List.length_pos_of_mem hm
  unfold intLinIncR2
  rw [hr]
  dsimp only
  rw [if_pos hlen, hVs]

/-- The system `x = b₀`, `y = b₁`. -/
def idA (i k : Fin 2) : Iv ℚ := if i = k then ⟨.classical, 1, 1⟩ else ⟨.classical, 0, 0⟩

theorem idA_part (b : Fin 2 → Iv ℚ) (hb : ∀ i, (b i).a ≤ (b i).b) (ort : Fin 2 → Bool) (x : ℚ × ℚ) :
    Part idA b .uni ort x ↔ InOrthant ort ![x.1, x.2] ∧ ((b 0).a ≤ x.1 ∧ x.1 ≤ (b 0).b) ∧ (b 1).a ≤ x.2 ∧ x.2 ≤ (b 1).b := by
  have hA : ∀ i k, (idA i k).a ≤ (idA i k).b := fun i k => by unfold idA; split_ifs <;> rfl
  have key := C48_plane idA b hA hb ort .uni _ rfl ![x.1, x.2]
  unfold Part
  rw [← key]
  have e : ∀ i k, (orthDual idA ort i k) = idA i k := by
    intro i k
    unfold orthDual idA
    split_ifs <;> rfl
  have horth := key.1
  constructor
  · intro h
    refine ⟨(key.1 h).1, ?_⟩
    have h1 : ∀ i, _ := fun i => h _ (List.mem_append_left _ (List.mem_append_left _ (List.mem_ofFn.2 ⟨i, rfl⟩)))
    have h2 : ∀ i, _ := fun i => h _ (List.mem_append_left _ (List.mem_append_right _ (List.mem_ofFn.2 ⟨i, rfl⟩)))
    have a0 := h1 0
    have a1 := h1 1
    have b0 := h2 0
    have b1 := h2 1
    simp [Fin.sum_univ_two, e, idA] at a0 a1 b0 b1
    exact ⟨⟨b0, a0⟩, b1, a1⟩
  · rintro ⟨ho, ⟨h1, h2⟩, h3, h4⟩
    refine key.2 ⟨ho, fun i k => (idA i k).a, fun i k => ?_, ![x.1, x.2], fun i => ?_, fun i => ?_⟩
    · exact Iv.mem_def.2 ⟨le_refl _, hA i k⟩
    · fin_cases i
      · exact Iv.mem_def.2 ⟨h1, h2⟩
      · exact Iv.mem_def.2 ⟨h3, h4⟩
    · fin_cases i <;> simp [idA, apply, Fin.sum_univ_two]

/-- C82: false, because points closer than `1e-8` are identified: of the solution set `[0, 1] × [0, 1e-9]` the
vertex `(1, 0)` is lost. -/
theorem C82_false : ¬ C82_statement (1 / 10 ^ 301 : ℚ) idA ![⟨.classical, 0, 1⟩, ⟨.classical, 0, 1 / 10 ^ 9⟩] .uni ∧
    ¬ C82_statement (0 : ℚ) idA ![⟨.classical, 0, 1⟩, ⟨.classical, 0, 1 / 10 ^ 9⟩] .uni := by
  have main : ∀ eps : ℚ, (match (intLinIncR2 eps idA ![⟨.classical, 0, 1⟩, ⟨.classical, 0, 1 / 10 ^ 9⟩] .uni none []).1 with
      | .ok (V :: _) => !(V.contains (round12 ((1 : ℚ), 0)))
      | _ => false) = true → ¬ C82_statement eps idA ![⟨.classical, 0, 1⟩, ⟨.classical, 0, 1 / 10 ^ 9⟩] .uni := by
    intro eps hno h
    have hiff := idA_part ![⟨.classical, 0, 1⟩, ⟨.classical, 0, 1 / 10 ^ 9⟩] (by intro i; fin_cases i <;> norm_num)
    obtain ⟨Vs, hVs, hF⟩ := h fun ort => ⟨1, fun x hx => by
      obtain ⟨-, ⟨h1, h2⟩, h3, h4⟩ := (hiff ort x).1 hx
      simp at h1 h2 h3 h4
      constructor <;> rw [abs_le] <;> constructor <;> linarith⟩
    rw [hVs] at hno
    cases hF with
    | cons hV _ =>
        obtain ⟨C, hC, rfl⟩ := hV
        have hmem : ((1 : ℚ), (0 : ℚ)) ∈ C := by
          refine (hC.2.1 _).2 ⟨(hiff _ _).2 ⟨?_, by norm_num, by norm_num⟩, fun u v hu hv h1 h2 => ?_⟩
          · intro k; fin_cases k <;> norm_num
          · obtain ⟨-, ⟨a1, a2⟩, a3, -⟩ := (hiff _ _).1 hu
            obtain ⟨-, ⟨c1, c2⟩, c3, -⟩ := (hiff _ _).1 hv
            simp at a2 a3 c2 c3
            norm_num at h1 h2
            refine Prod.ext ?_ ?_ <;> linarith
        simp only [Bool.not_eq_true', List.contains_eq_mem, decide_eq_false_iff_not] at hno
        exact hno (List.mem_map_of_mem hmem)
  exact ⟨main _ (by decide +kernel), main _ (by decide +kernel)⟩

/-- The vertices of a box are its corners. -/
theorem box_corner {P : ℚ × ℚ → Prop} {l h : ℚ × ℚ}
    (hP : ∀ x, P x ↔ (l.1 ≤ x.1 ∧ x.1 ≤ h.1) ∧ l.2 ≤ x.2 ∧ x.2 ≤ h.2) (u : ℚ × ℚ) (hu : Extreme P u) :
    (u.1 = l.1 ∨ u.1 = h.1) ∧ (u.2 = l.2 ∨ u.2 = h.2) := by
  obtain ⟨⟨h1, h2⟩, h3, h4⟩ := (hP u).1 hu.1
  constructor
  · by_contra hcon
    push Not at hcon
    have a := lt_of_le_of_ne h1 (Ne.symm hcon.1)
    have b := lt_of_le_of_ne h2 hcon.2
    have hd : 0 < min (u.1 - l.1) (h.1 - u.1) := lt_min (by linarith) (by linarith)
    have hl := min_le_left (u.1 - l.1) (h.1 - u.1)
    have hr := min_le_right (u.1 - l.1) (h.1 - u.1)
    have := hu.2 (u.1 - min (u.1 - l.1) (h.1 - u.1), u.2) (u.1 + min (u.1 - l.1) (h.1 - u.1), u.2)
      ((hP _).2 ⟨⟨by simp only []; linarith, by simp only []; linarith⟩, h3, h4⟩)
      ((hP _).2 ⟨⟨by simp only []; linarith, by simp only []; linarith⟩, h3, h4⟩)
      (by simp only []; ring) (by simp only []; ring)
    have := congrArg Prod.fst this
    simp only [] at this
    linarith
  · by_contra hcon
    push Not at hcon
    have a := lt_of_le_of_ne h3 (Ne.symm hcon.1)
    have b := lt_of_le_of_ne h4 hcon.2
    have hd : 0 < min (u.2 - l.2) (h.2 - u.2) := lt_min (by linarith) (by linarith)
    have hl := min_le_left (u.2 - l.2) (h.2 - u.2)
    have hr := min_le_right (u.2 - l.2) (h.2 - u.2)
    have := hu.2 (u.1, u.2 - min (u.2 - l.2) (h.2 - u.2)) (u.1, u.2 + min (u.2 - l.2) (h.2 - u.2))
      ((hP _).2 ⟨⟨h1, h2⟩, by simp only []; linarith, by simp only []; linarith⟩)
      ((hP _).2 ⟨⟨h1, h2⟩, by simp only []; linarith, by simp only []; linarith⟩)
      (by simp only []; ring) (by simp only []; ring)
    have := congrArg Prod.snd this
    simp only [] at this
    linarith

theorem idA_nice : NiceSystem idA ![⟨.classical, 1, 2⟩, ⟨.classical, 1, 2⟩] := by
  have g0 : OnGrid (0 : ℚ) := by simpa using onGrid_int (K := ℚ) 0
  have g1 : OnGrid (1 : ℚ) := by simpa using onGrid_int (K := ℚ) 1
  have g2 : OnGrid (2 : ℚ) := by simpa using onGrid_int (K := ℚ) 2
  refine ⟨fun i k => ?_, fun i => ?_, fun i => ⟨i, ?_⟩⟩
  · unfold idA
    split_ifs
    · exact ⟨le_refl _, ⟨g1, Or.inr (by norm_num)⟩, g1, Or.inr (by norm_num)⟩
    · exact ⟨le_refl _, ⟨g0, Or.inl rfl⟩, g0, Or.inl rfl⟩
  · fin_cases i
    · exact ⟨by norm_num, g1, g2⟩
    · exact ⟨by norm_num, g1, g2⟩
  · simp [idA]

/-- The hypotheses of `C82_bounded_partial` hold for the solution set `[1, 2] × [1, 2]`. -/
example : ∃ Vs, intLinIncR2 0 idA ![⟨.classical, 1, 2⟩, ⟨.classical, 1, 2⟩] .uni none [] = (.ok Vs, []) ∧
    List.Forall₂ (fun ort V => Listed (Part idA ![⟨.classical, 1, 2⟩, ⟨.classical, 1, 2⟩] .uni ort) V) orthants2 Vs := by
  have hiff := idA_part ![⟨.classical, 1, 2⟩, ⟨.classical, 1, 2⟩] (by intro i; fin_cases i <;> norm_num)
  refine C82_bounded_partial idA _ idA_nice .uni (by decide) (fun ort => ⟨2, fun x hx => ?_⟩) fun ort => ?_
  · obtain ⟨-, ⟨h1, h2⟩, h3, h4⟩ := (hiff ort x).1 hx
    simp at h1 h2 h3 h4
    constructor <;> rw [abs_le] <;> constructor <;> linarith
  · intro u v hu hv hne
    by_cases ho : ort 0 = true ∧ ort 1 = true
    · have hP : ∀ x, Part idA ![⟨.classical, 1, 2⟩, ⟨.classical, 1, 2⟩] .uni ort x ↔ (((1 : ℚ), (1 : ℚ)).1 ≤ x.1 ∧ x.1 ≤ ((2 : ℚ), (2 : ℚ)).1) ∧
          ((1 : ℚ), (1 : ℚ)).2 ≤ x.2 ∧ x.2 ≤ ((2 : ℚ), (2 : ℚ)).2 := by
        intro x
        rw [hiff]
        constructor
        · intro h; exact h.2
        · intro h
          refine ⟨fun k => ?_, h⟩
          obtain ⟨⟨h1, h2⟩, h3, h4⟩ := h
          fin_cases k
          · simp [ho.1]; linarith
          · simp [ho.2]; linarith
      obtain ⟨hu1, hu2⟩ := box_corner hP u hu
      obtain ⟨hv1, hv2⟩ := box_corner hP v hv
      obtain ⟨u1, u2⟩ := u
      obtain ⟨v1, v2⟩ := v
      dsimp only at hu1 hu2 hv1 hv2
      rcases hu1 with rfl | rfl <;> rcases hu2 with rfl | rfl <;> rcases hv1 with rfl | rfl <;>
        rcases hv2 with rfl | rfl <;> first | exact absurd rfl hne | norm_num [maxDist]
    · exfalso
      obtain ⟨hor, ⟨h1, h2⟩, h3, h4⟩ := (hiff ort u).1 hu.1
      simp at h1 h3
      have k0 := hor 0
      have k1 := hor 1
      rcases not_and_or.1 ho with h | h
      · simp [h] at k0; linarith
      · simp [h] at k1; linarith

/-- One equation `x = [1, 2]` with the unknowns `x, y`. -/
def stripA (_ : Fin 1) : Fin 2 → Iv ℚ := ![⟨.classical, 1, 1⟩, ⟨.classical, 0, 0⟩]

/-- Values: a square in the first orthant; a strip drawn with a given window and with the automatic one. -/
example : (intLinIncR2 0 idA ![⟨.classical, 1, 2⟩, ⟨.classical, 1, 2⟩] .uni none []).1.toOption =
      some [[(2, 2), (2, 1), (1, 1), (1, 2)], [], [], []] ∧
    (intLinIncR2 0 stripA ![⟨.classical, 1, 2⟩] .uni (some ((-3, -3), (3, 3))) []).1.toOption =
      some [[(2, 3), (2, 0), (1, 0), (1, 3)], [], [], [(2, 0), (2, -3), (1, -3), (1, 0)]] ∧
    (intLinIncR2 0 stripA ![⟨.classical, 1, 2⟩] .uni none []).1.toOption =
      some [[(2, 6), (2, 0), (1, 0), (1, 6)], [], [], [(2, 0), (2, -6), (1, -6), (1, 0)]] := by
  refine ⟨?_, ?_, ?_⟩ <;> decide +kernel

/-- The hypotheses of `C82_auto_partial` hold for the strip. -/
example : NiceSystem stripA ![⟨.classical, 1, 2⟩] ∧
    (∃ Ws st', algo2 0 stripA ![⟨.classical, 1, 2⟩] .uni none orthants2 [] = (.ok Ws, st')) ∧
    ∃ ort ∈ orthants2, ¬ BoundedSet (Part stripA ![⟨.classical, 1, 2⟩] .uni ort) := by
  have g0 : OnGrid (0 : ℚ) := by simpa using onGrid_int (K := ℚ) 0
  have g1 : OnGrid (1 : ℚ) := by simpa using onGrid_int (K := ℚ) 1
  have g2 : OnGrid (2 : ℚ) := by simpa using onGrid_int (K := ℚ) 2
  refine ⟨⟨fun i k => ?_, fun i => ?_, fun i => ⟨0, ?_⟩⟩, ?_, ![true, true], by simp [orthants2], ?_⟩
  · fin_cases k
    · exact ⟨le_refl _, ⟨g1, Or.inr (by norm_num [stripA])⟩, g1, Or.inr (by norm_num [stripA])⟩
    · exact ⟨le_refl _, ⟨g0, Or.inl rfl⟩, g0, Or.inl rfl⟩
  · fin_cases i
    exact ⟨by norm_num, g1, g2⟩
  · simp [stripA]
  · have h : (algo2 0 stripA ![⟨.classical, 1, 2⟩] .uni none orthants2 []).1.toOption.isSome = true := by
      decide +kernel
    rcases hr : algo2 0 stripA ![⟨.classical, 1, 2⟩] .uni none orthants2 [] with ⟨e | Ws, st'⟩
    · rw [hr] at h; cases h
    · exact ⟨Ws, st', rfl⟩
  · rintro ⟨R, hR⟩
    have := (hR (1, |R| + 1) ⟨fun k => by fin_cases k <;> simp; positivity,
      fun i k => (stripA i k).a, fun i k => Iv.mem_def.2 ⟨le_refl _, ?_⟩, fun _ => 1, fun i => Iv.mem_def.2 ?_, fun i => ?_⟩).2
    · have h1 := le_abs_self R
      have h2 := le_abs_self (|R| + 1)
      dsimp only at this
      linarith
    · fin_cases k <;> exact le_refl _
    · fin_cases i
      norm_num
    · simp [apply, stripA, Fin.sum_univ_two]

end IntvalPy
