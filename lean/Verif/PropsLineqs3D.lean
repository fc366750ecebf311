import Verif.PropsSpace

/-!
# The faces returned by lineqs3D (C83, C84)
-/

set_option autoImplicit false
set_option linter.unusedSectionVars false

namespace IntvalPy

open Spec

variable {K : Type*} [Field K] [LinearOrder K] [FloorRing K] [IsStrictOrderedRing K]

/-- What the preprocessing does to rows it can represent. -/
theorem clear2_exact {S : List (Ineq2 K)} (hS : ∀ r ∈ S, ExactRow (toIneq r)) :
    ∃ ok, clear2 S = (S.filter fun r => decide (dot2 r.1 r.1 ≠ 0), ok) ∧
      (ok = true ↔ ∀ r ∈ S, r.1 = (0, 0) → r.2 ≤ 0) := by
  refine ⟨_, Prod.ext (lineqs_rows hS) rfl, ?_⟩
  have hexact : ∀ r ∈ S.map toIneq, ExactRow r := by
    intro r hr
    obtain ⟨r', hr', rfl⟩ := List.mem_map.1 hr
    exact hS r' hr'
  have hm : (S.map fun r : Ineq2 K => ((![r.1.1, r.1.2], r.2) : Ineq K 2)) = S.map toIneq := rfl
  unfold clear2 clearZeroRows
  dsimp only
  rw [hm, map_aroundRow hexact, Bool.not_eq_true', List.any_eq_false]
  constructor
  · intro h r hr h0
    have := h (toIneq r) (List.mem_map_of_mem hr)
    have hc : smallCount (toIneq r) = 2 := by
      rw [smallCount_eq_iff]
      intro j
      have e : (toIneq r).1 j = 0 := by
        fin_cases j
        · exact congrArg Prod.fst h0
        · exact congrArg Prod.snd h0
      rw [e, abs_zero]
      positivity
    simp only [hc, beq_self_eq_true, Bool.true_and, decide_eq_true_eq, not_lt] at this
    exact this
  · intro h r hr
    obtain ⟨r', hr', rfl⟩ := List.mem_map.1 hr
    simp only [Bool.and_eq_true, beq_iff_eq, decide_eq_true_eq, not_and, not_lt]
    intro hc
    rw [smallCount_eq_iff] at hc
    have hex := (hS r' hr').1
    have a : r'.1.1 = 0 := (hex 0).2.resolve_right (not_lt.2 (hc 0))
    have b : r'.1.2 = 0 := (hex 1).2.resolve_right (not_lt.2 (hc 1))
    exact h r' hr' (Prod.ext a b)

/-- Every other row, written in the variables of a face, has at most twelve decimals and coefficients that are zero
or larger than `1e-12`. -/
def Exact3 (S : List (Ineq3 K)) : Prop :=
  ∀ r ∈ S, dot3 r.1 r.1 ≠ 0 → ∀ s ∈ S, ExactRow (toIneq (cvRow r s))

/-- The vertices of every face are more than `1e-8` apart in the variables of the face. -/
def Separated3 (S : List (Ineq3 K)) : Prop :=
  ∀ r ∈ S, dot3 r.1 r.1 ≠ 0 → Separated fun p => Face (Sat3 S) r (cvPoint r p)

/-- The rows of a face after `ChangeVariable` and `clear_zero_rows`. -/
theorem changeVariable_exact {S : List (Ineq3 K)} (hlen : 2 ≤ S.length) (hex : Exact3 S) {k : Nat} {r : Ineq3 K}
    (hk : S[k]? = some r) (hN : dot3 r.1 r.1 ≠ 0) :
    ∃ T ok, changeVariable S k r = .ok (T, ok) ∧ (∀ t ∈ T, dot2 t.1 t.1 ≠ 0) ∧
      (ok = false → ∀ x, ¬ Face (Sat3 S) r x) ∧
      (ok = true → Sat2 T = fun p => Face (Sat3 S) r (cvPoint r p)) := by
  obtain ⟨ok, hc, hok⟩ := clear2_exact (S := (S.eraseIdx k).map (cvRow r)) (by
    intro t ht
    obtain ⟨s, hs, rfl⟩ := List.mem_map.1 ht
    exact hex r (List.mem_of_getElem? hk) hN s (List.mem_of_mem_eraseIdx hs))
  refine ⟨((S.eraseIdx k).map (cvRow r)).filter fun r => decide (dot2 r.1 r.1 ≠ 0), ok, ?_,
    fun t ht => by simpa using (List.mem_filter.1 ht).2, fun h0 x hx => ?_, fun h1 => ?_⟩
  · unfold changeVariable
    rw [if_neg (by omega), if_neg hN, hc]
  · have : ok = true := by
      rw [hok]
      intro t ht h0
      have e := (point_coords hN hx.2)
      rw [← e] at hx
      have := (face_iff hk hN _).2 hx t ht
      rw [h0] at this
      simpa [dot2] using this
    rw [h0] at this
    cases this
  · rw [sat2_filter (hok.1 h1)]
    funext p
    exact propext (face_iff hk hN p)

theorem not_bounded_all : ¬ BoundedSet (fun _ : K × K => True) := by
  rintro ⟨R, hR⟩
  have := (hR (|R| + 1, 0) trivial).1
  dsimp only at this
  rw [abs_of_nonneg (by positivity)] at this
  linarith [le_abs_self R]

theorem bounded_of_empty3 {F : V3 K → Prop} (h : ∀ x, ¬ F x) : BoundedSet3 F := ⟨0, fun x hx => absurd hx (h x)⟩

/-- The entry is a single point instead of a list of points. -/
def PPEntry.isPoint : PPEntry K → Prop
  | .point _ => True
  | .points _ => False

/-- The whole boundary plane of the row belongs to the set. -/
def WholePlane (P : V3 K → Prop) (r : Ineq3 K) : Prop := ∀ x, dot3 r.1 x = r.2 → P x

theorem not_sat_all {t : Ineq2 K} (h : dot2 t.1 t.1 ≠ 0) : ∃ p, dot2 t.1 p < t.2 := by
  have h0 : 0 < dot2 t.1 t.1 :=
    lt_of_le_of_ne (add_nonneg (mul_self_nonneg _) (mul_self_nonneg _)) (Ne.symm h)
  refine ⟨((t.2 - 1) / dot2 t.1 t.1 * t.1.1, (t.2 - 1) / dot2 t.1 t.1 * t.1.2), ?_⟩
  have e : dot2 t.1 ((t.2 - 1) / dot2 t.1 t.1 * t.1.1, (t.2 - 1) / dot2 t.1 t.1 * t.1.2) =
      (t.2 - 1) / dot2 t.1 t.1 * dot2 t.1 t.1 := by simp only [dot2]; ring
  rw [e, div_mul_cancel₀ _ h]
  linarith

/-- One pass of the first loop: nothing for an empty face, otherwise whether the face is bounded. -/
theorem faceEntry_spec {S : List (Ineq3 K)} (hlen : 2 ≤ S.length) (hex : Exact3 S) {k : Nat} {r : Ineq3 K}
    (hk : S[k]? = some r) (hN : dot3 r.1 r.1 ≠ 0) :
    ((∀ x, ¬ Face (Sat3 S) r x) ∧ faceEntry 0 S k r = .ok none) ∨
      ((∃ x, Face (Sat3 S) r x) ∧ ∃ p f, faceEntry 0 S k r = .ok (some (p, f)) ∧
        (f = true ↔ BoundedSet3 (Face (Sat3 S) r)) ∧ (p.isPoint ↔ WholePlane (Sat3 S) r)) := by
  obtain ⟨T, ok, hcv, hTn, hempty, hsat⟩ := changeVariable_exact hlen hex hk hN
  have hQ : ∀ p, (fun p => Face (Sat3 S) r (cvPoint r p)) p ↔ Face (Sat3 S) r (cvPoint r p) := fun p => Iff.rfl
  have hF : ∀ x, Face (Sat3 S) r x → dot3 r.1 x = r.2 := fun x hx => hx.2
  have hbd := bounded_point hN hF hQ
  have hnon : (∃ x, Face (Sat3 S) r x) ↔ ∃ p, Face (Sat3 S) r (cvPoint r p) :=
    ⟨fun ⟨x, hx⟩ => ⟨cvCoords r x, by rw [point_coords hN hx.2]; exact hx⟩, fun ⟨p, hp⟩ => ⟨_, hp⟩⟩
  unfold faceEntry
  rw [hcv]
  cases ok with
  | false => exact Or.inl ⟨hempty rfl, rfl⟩
  | true =>
      have hsat := hsat rfl
      cases T with
      | nil =>
          right
          have hall : (fun p => Face (Sat3 S) r (cvPoint r p)) = fun _ => True := by
            rw [← hsat]
            funext p
            exact propext ⟨fun _ => trivial, fun _ r hr => by cases hr⟩
          refine ⟨hnon.2 ⟨(0, 0), by have := congrFun hall (0, 0); exact this.mpr trivial⟩, _, _, rfl, ?_, ?_⟩
          · rw [← hbd, hall]
            exact ⟨fun h => (by cases h), fun h => absurd h not_bounded_all⟩
          · refine ⟨fun _ x hx => ?_, fun _ => trivial⟩
            have := congrFun hall (cvCoords r x)
            rw [point_coords hN hx] at this
            exact (this.mpr trivial).1
      | cons t T =>
          dsimp only
          have hne : t :: T ≠ [] := by simp
          by_cases he : ∃ x, Face (Sat3 S) r x
          · right
            obtain ⟨c, hc⟩ := hnon.1 he
            have hc' : Sat2 (t :: T) c := by rw [hsat]; exact hc
            obtain ⟨o, ho⟩ := C50_total 0 (t :: T) hTn
            have hemp := C50_empty_iff 0 (t :: T) hTn hne
            rw [ho]
            cases o with
            | none => exact absurd hc' (hemp.1 (Or.inl ho) c)
            | some E =>
                cases E with
                | nil => exact absurd hc' (hemp.1 (Or.inr ho) c)
                | cons e E =>
                    refine ⟨he, _, _, rfl, ?_, fun h => h.elim, fun hw => ?_⟩
                    swap
                    · obtain ⟨p, hp⟩ := not_sat_all (hTn t List.mem_cons_self)
                      have : Sat2 (t :: T) p := by
                        rw [hsat]
                        exact ⟨hw _ (point_on hN p), point_on hN p⟩
                      exact absurd (this t List.mem_cons_self) (not_le.2 hp)
                    rw [← hbd, ← hsat]
                    obtain ⟨hE1, -⟩ := C50_edges 0 (t :: T) (e :: E) ho
                    by_cases hinf : ((e :: E).any fun e => e.start.isNone) = true
                    · have hpp : (particularPoints (t :: T) (e :: E)).2 = true := by
                        unfold particularPoints
                        rw [if_pos hinf]
                      rw [hpp]
                      refine ⟨fun h => (by cases h), fun hb => ?_⟩
                      obtain ⟨e', he', hst⟩ := List.any_eq_true.1 hinf
                      obtain ⟨u, v, hu, -⟩ := bounded_ends hb (hE1 e' he')
                      rw [hu] at hst
                      cases hst
                    · have hpp : (particularPoints (t :: T) (e :: E)).2 = false := by
                        unfold particularPoints
                        rw [if_neg hinf]
                      rw [hpp]
                      refine ⟨fun _ => bounded_of_starts' hTn hc' ho (by simp) fun e' he' => ?_, fun _ => rfl⟩
                      rw [List.any_eq_true] at hinf
                      push Not at hinf
                      have := hinf e' he'
                      cases h : e'.start with
                      | none => rw [h] at this; exact absurd rfl this
                      | some _ => rfl
          · left
            push Not at he
            have hno : ∀ p, ¬ Sat2 (t :: T) p := by
              intro p hp
              rw [hsat] at hp
              exact he _ hp
            refine ⟨he, ?_⟩
            rcases (C50_empty_iff 0 (t :: T) hTn hne).2 hno with h | h <;> rw [h]

/-- One pass of the second loop: the closed path through the vertices of a bounded face. -/
theorem facePath_spec {S : List (Ineq3 K)} (hlen : 2 ≤ S.length) (hex : Exact3 S) {k : Nat} {r : Ineq3 K}
    (hk : S[k]? = some r) (hN : dot3 r.1 r.1 ≠ 0) (hb : BoundedSet3 (Face (Sat3 S) r))
    (hsep : Separated fun p => Face (Sat3 S) r (cvPoint r p)) :
    ((∀ x, ¬ Face (Sat3 S) r x) ∧ facePath 0 S k r = .ok none) ∨
      ((∃ x, Face (Sat3 S) r x) ∧ ∃ C, FaceList r.1 (Face (Sat3 S) r) C ∧
        facePath 0 S k r = .ok (some (closePath C))) := by
  obtain ⟨T, ok, hcv, hTn, hempty, hsat⟩ := changeVariable_exact hlen hex hk hN
  have hQ : ∀ p, (fun p => Face (Sat3 S) r (cvPoint r p)) p ↔ Face (Sat3 S) r (cvPoint r p) := fun p => Iff.rfl
  have hF : ∀ x, Face (Sat3 S) r x → dot3 r.1 x = r.2 := fun x hx => hx.2
  have hbd := (bounded_point hN hF hQ).2 hb
  have hnon : (∃ x, Face (Sat3 S) r x) ↔ ∃ p, Face (Sat3 S) r (cvPoint r p) :=
    ⟨fun ⟨x, hx⟩ => ⟨cvCoords r x, by rw [point_coords hN hx.2]; exact hx⟩, fun ⟨p, hp⟩ => ⟨_, hp⟩⟩
  unfold facePath
  rw [hcv]
  cases ok with
  | false => exact Or.inl ⟨hempty rfl, rfl⟩
  | true =>
      have hsat := hsat rfl
      dsimp only
      by_cases hne : T = []
      · exfalso
        rw [← hsat, hne] at hbd
        refine not_bounded_all (K := K) ?_
        obtain ⟨R, hR⟩ := hbd
        exact ⟨R, fun x _ => hR x fun r hr => by cases hr⟩
      by_cases he : ∃ x, Face (Sat3 S) r x
      · right
        obtain ⟨c, hc⟩ := hnon.1 he
        have hc' : Sat2 T c := by rw [hsat]; exact hc
        obtain ⟨E, hE, hE0, -, C, hC, -, segs, hsegs, hpath⟩ := convex_finish hTn hne hc' (hsat ▸ hbd) (hsat ▸ hsep)
        rw [hE]
        cases E with
        | nil => exact absurd rfl hE0
        | cons e E =>
            dsimp only
            rw [hsegs]
            dsimp only
            rw [hpath]
            rw [hsat] at hC
            exact ⟨he, _, faceList_point hN hF hQ hC, by rw [closePath_map]⟩
      · left
        push Not at he
        have hno : ∀ p, ¬ Sat2 T p := by
          intro p hp
          rw [hsat] at hp
          exact he _ hp
        refine ⟨he, ?_⟩
        rcases (C50_empty_iff 0 T hTn hne).2 hno with h | h <;> rw [h]

theorem faceLoop_spec {S : List (Ineq3 K)} (hlen : 2 ≤ S.length) (hex : Exact3 S) (hN : ∀ r ∈ S, dot3 r.1 r.1 ≠ 0)
    (L : List (Nat × Ineq3 K)) (hL : ∀ p ∈ L, S[p.1]? = some p.2) :
    ∃ PP fin, faceLoop 0 S L = .ok (PP, fin) ∧ (PP = [] ↔ ∀ p ∈ L, ∀ x, ¬ Face (Sat3 S) p.2 x) ∧
      (fin = true ↔ ∀ p ∈ L, BoundedSet3 (Face (Sat3 S) p.2)) ∧
      ((∃ e ∈ PP, e.isPoint) ↔ ∃ p ∈ L, WholePlane (Sat3 S) p.2) := by
  induction L with
  | nil => exact ⟨[], true, rfl, by simp, by simp, by simp⟩
  | cons q L ih =>
      obtain ⟨PP, fin, h1, h2, h3, h4⟩ := ih fun p hp => hL p (List.mem_cons_of_mem _ hp)
      obtain ⟨k, r⟩ := q
      have hk := hL (k, r) List.mem_cons_self
      dsimp only at hk
      have hr := hN r (List.mem_of_getElem? hk)
      unfold faceLoop
      rcases faceEntry_spec hlen hex hk hr with ⟨he, h⟩ | ⟨⟨x, hx⟩, p, f, h, hf, hp⟩
      · rw [h, h1]
        refine ⟨PP, fin, rfl, ?_, ?_, ?_⟩
        · rw [h2, List.forall_mem_cons]
          exact ⟨fun h => ⟨he, h⟩, fun h => h.2⟩
        · rw [h3, List.forall_mem_cons]
          exact ⟨fun h => ⟨bounded_of_empty3 he, h⟩, fun h => h.2⟩
        · rw [h4, List.exists_mem_cons_iff]
          refine ⟨Or.inr, fun h => h.resolve_left fun hw => ?_⟩
          exact he _ ⟨hw _ (point_on hr (0, 0)), point_on hr (0, 0)⟩
      · rw [h, h1]
        refine ⟨p :: PP, f && fin, rfl, ?_, ?_, ?_⟩
        · rw [List.forall_mem_cons]
          exact ⟨fun h => by simp at h, fun h => absurd hx (h.1 x)⟩
        · rw [List.forall_mem_cons, Bool.and_eq_true, hf, h3]
        · rw [List.exists_mem_cons_iff, List.exists_mem_cons_iff, hp, h4]

theorem pathsLoop_spec {S : List (Ineq3 K)} (hlen : 2 ≤ S.length) (hex : Exact3 S) (hN : ∀ r ∈ S, dot3 r.1 r.1 ≠ 0)
    (hb : ∀ r ∈ S, BoundedSet3 (Face (Sat3 S) r)) (hsep : Separated3 S)
    (L : List (Nat × Ineq3 K)) (hL : ∀ p ∈ L, S[p.1]? = some p.2) :
    ∃ rs Vs, pathsLoop 0 S L = .ok Vs ∧ rs.Sublist (L.map Prod.snd) ∧
      (∀ r ∈ L.map Prod.snd, r ∈ rs ↔ ∃ x, Face (Sat3 S) r x) ∧
      List.Forall₂ (fun r V => ∃ C, FaceList r.1 (Face (Sat3 S) r) C ∧ V = closePath C) rs Vs := by
  induction L with
  | nil => exact ⟨[], [], rfl, List.Sublist.refl _, by simp, .nil⟩
  | cons q L ih =>
      obtain ⟨rs, Vs, h1, h2, h3, h4⟩ := ih fun p hp => hL p (List.mem_cons_of_mem _ hp)
      obtain ⟨k, r⟩ := q
      have hk := hL (k, r) List.mem_cons_self
      dsimp only at hk
      have hrS := List.mem_of_getElem? hk
      unfold pathsLoop
      rcases facePath_spec hlen hex hk (hN r hrS) (hb r hrS) (hsep r hrS (hN r hrS)) with ⟨he, h⟩ | ⟨hx, C, hC, h⟩
      · rw [h, h1]
        refine ⟨rs, Vs, rfl, h2.cons _, fun r' hr' => ?_, h4⟩
        rcases List.mem_cons.1 hr' with rfl | hr'
        · refine ⟨fun hm => (h3 _ (h2.subset hm)).1 hm, fun ⟨x, hx⟩ => absurd hx (he x)⟩
        · exact h3 r' hr'
      · rw [h, h1]
        refine ⟨r :: rs, closePath C :: Vs, rfl, h2.cons_cons _, fun r' hr' => ?_, .cons ⟨C, hC, rfl⟩ h4⟩
        rcases List.mem_cons.1 hr' with rfl | hr'
        · exact ⟨fun _ => hx, fun _ => List.mem_cons_self⟩
        · rw [List.mem_cons, h3 r' hr']
          refine ⟨fun hm => ?_, fun hm => Or.inr hm⟩
          rcases hm with rfl | hm
          · exact hx
          · exact hm

/-! ## The rows that are kept -/

/-- A row of space in the form used by the preprocessing. -/
def toIneq3 (r : Ineq3 K) : Ineq K 3 := (![r.1.1, r.1.2.1, r.1.2.2], r.2)

/-- Systems on which the preprocessing does no damage: rows that are represented exactly, no row `0 ≥ c` with
`c > 0`, and no two different rows with the same differences `a - b`. -/
structure Clean3 (S : List (Ineq3 K)) : Prop where
  exact : ∀ r ∈ S, ExactRow (toIneq3 r)
  zero : ∀ r ∈ S, dot3 r.1 r.1 = 0 → r.2 ≤ 0
  keys : ∀ r ∈ S, ∀ s ∈ S, r.1.1 - r.2 = s.1.1 - s.2 → r.1.2.1 - r.2 = s.1.2.1 - s.2 →
    r.1.2.2 - r.2 = s.1.2.2 - s.2 → r = s

theorem smallCount_three {r : Ineq3 K} (h : ExactRow (toIneq3 r)) : smallCount (toIneq3 r) = 3 ↔ dot3 r.1 r.1 = 0 := by
  rw [smallCount_eq_iff]
  constructor
  · intro hc
    have a : r.1.1 = 0 := (h.1 0).2.resolve_right (not_lt.2 (hc 0))
    have b : r.1.2.1 = 0 := (h.1 1).2.resolve_right (not_lt.2 (hc 1))
    have c : r.1.2.2 = 0 := (h.1 2).2.resolve_right (not_lt.2 (hc 2))
    simp [dot3, a, b, c]
  · intro h0
    have := dot3_self_eq_zero h0
    intro j
    have e : (toIneq3 r).1 j = 0 := by
      unfold toIneq3
      rw [this]
      fin_cases j <;> rfl
    rw [e, abs_zero]
    positivity

/-- The working rows are the nonzero rows of the system, each once. -/
theorem prepare3_spec {S : List (Ineq3 K)} (h : Clean3 S) :
    (prepare3 S).Nodup ∧ ∀ r, r ∈ prepare3 S ↔ r ∈ S ∧ dot3 r.1 r.1 ≠ 0 := by
  have hexact : ∀ r ∈ S.map toIneq3, ExactRow r := by
    intro r hr
    obtain ⟨r', hr', rfl⟩ := List.mem_map.1 hr
    exact h.exact r' hr'
  have hm : (S.map fun r : Ineq3 K => ((![r.1.1, r.1.2.1, r.1.2.2], r.2) : Ineq K 3)) = S.map toIneq3 := rfl
  have hc : (clearZeroRows (d := 3) 3 (S.map toIneq3)).1 = (S.map toIneq3).filter fun r => smallCount r != 3 := by
    unfold clearZeroRows
    dsimp only
    rw [map_aroundRow hexact]
  have hsub : ∀ r ∈ (S.map toIneq3).filter fun r => smallCount r != 3, ExactRow r :=
    fun r hr => hexact r (List.mem_of_mem_filter hr)
  have hn : nonRepeat ((S.map toIneq3).filter fun r => smallCount r != 3) =
      firstOf (fun r : Ineq K 3 => fun j => r.1 j - r.2) [] ((S.map toIneq3).filter fun r => smallCount r != 3) := by
    unfold nonRepeat
    rw [map_aroundRow hsub]
  have hback : ∀ r : Ineq3 K, (((toIneq3 r).1 0, (toIneq3 r).1 1, (toIneq3 r).1 2), (toIneq3 r).2) = r := fun r => rfl
  have hfwd : ∀ r : Ineq K 3, toIneq3 ((r.1 0, r.1 1, r.1 2), r.2) = r := fun r =>
    Prod.ext (funext fun j => by fin_cases j <;> rfl) rfl
  unfold prepare3
  rw [hm, hc, hn]
  constructor
  · refine List.Nodup.map (fun r s hrs => ?_) ?_
    · rw [← hfwd r, ← hfwd s, hrs]
    · refine (firstOf_pairwise _ _ _).imp ?_
      rintro r s hk rfl
      exact hk rfl
  · intro r
    rw [List.mem_map]
    constructor
    · rintro ⟨r', hr', rfl⟩
      obtain ⟨h1, h2⟩ := List.mem_filter.1 (firstOf_mem _ _ _ r' hr').1
      obtain ⟨r0, hr0, rfl⟩ := List.mem_map.1 h1
      rw [hback]
      refine ⟨hr0, fun h0 => ?_⟩
      rw [(smallCount_three (h.exact r0 hr0)).2 h0] at h2
      simp at h2
    · rintro ⟨hr, h0⟩
      have hmem : toIneq3 r ∈ (S.map toIneq3).filter fun r => smallCount r != 3 := by
        refine List.mem_filter.2 ⟨List.mem_map_of_mem hr, ?_⟩
        rw [bne_iff_ne]
        exact fun hc => h0 ((smallCount_three (h.exact r hr)).1 hc)
      rcases firstOf_covers (fun r : Ineq K 3 => fun j => r.1 j - r.2) _ [] _ hmem with hc | ⟨r', h1, h2⟩
      · cases hc
      · refine ⟨r', h1, ?_⟩
        obtain ⟨s, hs, rfl⟩ := List.mem_map.1 (List.mem_of_mem_filter (firstOf_mem _ _ _ r' h1).1)
        rw [hback]
        exact h.keys s hs r hr (congrFun h2 0) (congrFun h2 1) (congrFun h2 2)

theorem sat3_prepare {S : List (Ineq3 K)} (h : Clean3 S) : Sat3 (prepare3 S) = Sat3 S := by
  obtain ⟨-, hm⟩ := prepare3_spec h
  funext x
  refine propext ⟨fun hx r hr => ?_, fun hx r hr => hx r ((hm r).1 hr).1⟩
  by_cases h0 : dot3 r.1 r.1 = 0
  · have := h.zero r hr h0
    rw [dot3_self_eq_zero h0]
    simpa [dot3] using this
  · exact hx r ((hm r).2 ⟨hr, h0⟩)

theorem exact3_prepare {S : List (Ineq3 K)} (h : Clean3 S) (hex : Exact3 S) : Exact3 (prepare3 S) :=
  fun r hr h0 s hs => hex r (((prepare3_spec h).2 r).1 hr).1 h0 s (((prepare3_spec h).2 s).1 hs).1

theorem separated3_prepare {S : List (Ineq3 K)} (h : Clean3 S) (hsep : Separated3 S) : Separated3 (prepare3 S) := by
  intro r hr h0
  rw [sat3_prepare h]
  exact hsep r (((prepare3_spec h).2 r).1 hr).1 h0

/-- A bounded set needs at least two rows. -/
theorem two_rows {S : List (Ineq3 K)} (hN : ∀ r ∈ S, dot3 r.1 r.1 ≠ 0) (hb : BoundedSet3 (Sat3 S)) :
    2 ≤ S.length := by
  by_contra hl
  obtain ⟨R, hR⟩ := hb
  rcases S with _ | ⟨r, _ | ⟨s, S⟩⟩
  · have := (hR (|R| + 1, 0, 0) fun r hr => by cases hr).1
    dsimp only at this
    rw [abs_of_nonneg (by positivity)] at this
    linarith [le_abs_self R]
  · have h0 := hN r List.mem_cons_self
    have hF : ∀ p, Sat3 [r] (cvPoint r p) := by
      intro p s hs
      rw [List.mem_singleton.1 hs, point_on h0]
    refine not_bounded_all (K := K) ((bounded_point (F := fun x => dot3 r.1 x = r.2) h0 (fun x hx => hx)
      (fun p => ⟨fun _ => point_on h0 p, fun _ => trivial⟩)).2 ⟨R, fun x hx => hR x ?_⟩)
    rw [← point_coords h0 hx]
    exact hF _
  · simp at hl

/-! ## Moving through the set -/

/-- `u + t d`. -/
def mv3 (u d : V3 K) (t : K) : V3 K := (u.1 + t * d.1, u.2.1 + t * d.2.1, u.2.2 + t * d.2.2)

theorem dot3_mv (a u d : V3 K) (t : K) : dot3 a (mv3 u d t) = dot3 a u + t * dot3 a d := by
  simp only [dot3, mv3]; ring

/-- A point on no boundary plane can be moved both ways. -/
theorem wiggle3 (S : List (Ineq3 K)) (v d : V3 K) (h : ∀ r ∈ S, r.2 < dot3 r.1 v) :
    ∃ t, 0 < t ∧ Sat3 S (mv3 v d t) ∧ Sat3 S (mv3 v d (-t)) := by
  suffices ∃ t, 0 < t ∧ ∀ r ∈ S, t * |dot3 r.1 d| ≤ dot3 r.1 v - r.2 by
    obtain ⟨t, ht, hr⟩ := this
    refine ⟨t, ht, fun r hrS => ?_, fun r hrS => ?_⟩ <;> rw [dot3_mv] <;>
      nlinarith [hr r hrS, le_abs_self (dot3 r.1 d), neg_abs_le (dot3 r.1 d)]
  induction S with
  | nil => exact ⟨1, one_pos, fun r hr => by cases hr⟩
  | cons r S ih =>
      obtain ⟨t, ht, hS⟩ := ih fun s hs => h s (List.mem_cons_of_mem _ hs)
      have hr : 0 < dot3 r.1 v - r.2 := sub_pos.2 (h r List.mem_cons_self)
      have hd : 0 < 1 + |dot3 r.1 d| := by positivity
      refine ⟨min t ((dot3 r.1 v - r.2) / (1 + |dot3 r.1 d|)), lt_min ht (div_pos hr hd), fun s hs => ?_⟩
      rcases List.mem_cons.1 hs with rfl | hs
      · refine (mul_le_mul_of_nonneg_right (min_le_right _ _) (abs_nonneg _)).trans ?_
        rw [div_mul_eq_mul_div, div_le_iff₀ hd]
        nlinarith [abs_nonneg (dot3 s.1 d)]
      · exact (mul_le_mul_of_nonneg_right (min_le_left _ _) (abs_nonneg _)).trans (hS s hs)

/-- Moving in a direction in which some row decreases, one meets a boundary plane. -/
theorem ray3 {S : List (Ineq3 K)} {x : V3 K} (hx : Sat3 S x) (d : V3 K) (h : ∃ r ∈ S, dot3 r.1 d < 0) :
    ∃ t, 0 ≤ t ∧ ∃ r ∈ S, dot3 r.1 d < 0 ∧ Face (Sat3 S) r (mv3 x d t) := by
  classical
  obtain ⟨r0, hr0, hd0⟩ := h
  let F := S.toFinset.filter fun r => dot3 r.1 d < 0
  obtain ⟨r, hr, hmin⟩ := F.exists_min_image (fun r => (dot3 r.1 x - r.2) / (-dot3 r.1 d))
    ⟨r0, Finset.mem_filter.2 ⟨List.mem_toFinset.2 hr0, hd0⟩⟩
  obtain ⟨hrS, hrd⟩ := Finset.mem_filter.1 hr
  rw [List.mem_toFinset] at hrS
  have ht : 0 ≤ (dot3 r.1 x - r.2) / (-dot3 r.1 d) := div_nonneg (sub_nonneg.2 (hx r hrS)) (by linarith)
  refine ⟨_, ht, r, hrS, hrd, fun s hs => ?_, ?_⟩
  · rw [dot3_mv]
    by_cases hsd : dot3 s.1 d < 0
    · have := hmin s (Finset.mem_filter.2 ⟨List.mem_toFinset.2 hs, hsd⟩)
      rw [le_div_iff₀ (by linarith)] at this
      linarith
    · have := hx s hs
      nlinarith
  · have : dot3 r.1 d ≠ 0 := hrd.ne
    rw [dot3_mv]
    field_simp
    ring

/-- Every vertex lies on a boundary plane. -/
theorem extreme_on {S : List (Ineq3 K)} {v : V3 K} (hv : Extreme3 (Sat3 S) v) : ∃ r ∈ S, dot3 r.1 v = r.2 := by
  by_contra hno
  push Not at hno
  obtain ⟨t, ht, h1, h2⟩ := wiggle3 S v (1, 0, 0) fun r hr => lt_of_le_of_ne (hv.1 r hr) (Ne.symm (hno r hr))
  have := congrArg Prod.fst (hv.2 _ _ h1 h2 (by simp only [mv3]; ring) (by simp only [mv3]; ring)
    (by simp only [mv3]; ring))
  simp only [mv3] at this
  linarith

/-- The vertices of a face are the vertices of the set on it. -/
theorem extreme_face {S : List (Ineq3 K)} {r : Ineq3 K} (hr : r ∈ S) (v : V3 K) :
    Extreme3 (Face (Sat3 S) r) v ↔ Extreme3 (Sat3 S) v ∧ dot3 r.1 v = r.2 := by
  constructor
  · rintro ⟨⟨hv, he⟩, hm⟩
    refine ⟨⟨hv, fun x y hx hy h1 h2 h3 => ?_⟩, he⟩
    have hs : dot3 r.1 x + dot3 r.1 y = 2 * dot3 r.1 v := by
      simp only [dot3]
      linear_combination r.1.1 * h1 + r.1.2.1 * h2 + r.1.2.2 * h3
    have := hx r hr
    have := hy r hr
    exact hm x y ⟨hx, by linarith⟩ ⟨hy, by linarith⟩ h1 h2 h3
  · rintro ⟨⟨hv, hm⟩, he⟩
    exact ⟨⟨hv, he⟩, fun x y hx hy => hm x y hx.1 hy.1⟩

/-- A nonempty set with a nonzero row has a nonempty face. -/
theorem exists_face {S : List (Ineq3 K)} (hne : S ≠ []) (hN : ∀ r ∈ S, dot3 r.1 r.1 ≠ 0) {x : V3 K}
    (hx : Sat3 S x) : ∃ r ∈ S, ∃ y, Face (Sat3 S) r y := by
  obtain ⟨r, S', rfl⟩ := List.exists_cons_of_ne_nil hne
  obtain ⟨t, -, s, hs, -, h⟩ := ray3 hx (-r.1.1, -r.1.2.1, -r.1.2.2) ⟨r, List.mem_cons_self, by
    have := dot3_self_pos (hN r List.mem_cons_self)
    simp only [dot3] at this ⊢
    linarith⟩
  exact ⟨s, hs, _, h⟩

/-- A bounded set contains no line. -/
theorem no_line {F : V3 K → Prop} (hF : BoundedSet3 F) {y d : V3 K} (h : ∀ t, F (mv3 y d t)) : d = (0, 0, 0) := by
  obtain ⟨R, hR⟩ := hF
  have key : ∀ u v : K, (∀ t, |u + t * v| ≤ R) → v = 0 := by
    intro u v hb
    by_contra hv
    have h1 := hb ((|R| + 1 - u) / v)
    rw [div_mul_cancel₀ _ hv, add_sub_cancel, abs_of_nonneg (by positivity)] at h1
    linarith [le_abs_self R]
  refine Prod.ext (key y.1 _ fun t => (hR _ (h t)).1) (Prod.ext (key y.2.1 _ fun t => (hR _ (h t)).2.1)
    (key y.2.2 _ fun t => (hR _ (h t)).2.2))

theorem axis_bound {S : List (Ineq3 K)} (hne : S ≠ []) (hN : ∀ r ∈ S, dot3 r.1 r.1 ≠ 0)
    (hb : ∀ r ∈ S, BoundedSet3 (Face (Sat3 S) r)) {e d : V3 K} {R : K}
    (hR : ∀ r ∈ S, ∀ y, Face (Sat3 S) r y → |dot3 e y| ≤ R) (hd : d ≠ (0, 0, 0)) (hed : dot3 e d = 0)
    {x : V3 K} (hx : Sat3 S x) : |dot3 e x| ≤ R := by
  have hit : ∀ d', dot3 e d' = 0 → (∃ r ∈ S, dot3 r.1 d' < 0) → |dot3 e x| ≤ R := by
    intro d' h0 hr
    obtain ⟨t, -, r, hr, -, h⟩ := ray3 hx d' hr
    have := hR r hr _ h
    rwa [dot3_mv, h0, mul_zero, add_zero] at this
  by_cases hall : ∀ r ∈ S, dot3 r.1 d = 0
  · obtain ⟨r, hr, y, hy⟩ := exists_face hne hN hx
    refine absurd (no_line (hb r hr) (y := y) (d := d) fun t => ⟨fun s hs => ?_, ?_⟩) hd
    · rw [dot3_mv, hall s hs, mul_zero, add_zero]
      exact hy.1 s hs
    · rw [dot3_mv, hall r hr, mul_zero, add_zero]
      exact hy.2
  · push Not at hall
    obtain ⟨r, hr, h0⟩ := hall
    rcases lt_or_gt_of_ne h0 with h | h
    · exact hit d hed ⟨r, hr, h⟩
    · refine hit (-d.1, -d.2.1, -d.2.2) ?_ ⟨r, hr, ?_⟩
      · simp only [dot3] at hed ⊢; linarith
      · simp only [dot3] at h ⊢; linarith

/-- A set all of whose faces are bounded is bounded. -/
theorem bounded_of_faces {S : List (Ineq3 K)} (hne : S ≠ []) (hN : ∀ r ∈ S, dot3 r.1 r.1 ≠ 0)
    (hb : ∀ r ∈ S, BoundedSet3 (Face (Sat3 S) r)) : BoundedSet3 (Sat3 S) := by
  have : ∀ T : List (Ineq3 K), (∀ r ∈ T, BoundedSet3 (Face (Sat3 S) r)) →
      ∃ R, ∀ r ∈ T, ∀ y, Face (Sat3 S) r y → |y.1| ≤ R ∧ |y.2.1| ≤ R ∧ |y.2.2| ≤ R := by
    intro T
    induction T with
    | nil => exact fun _ => ⟨0, fun r hr => by cases hr⟩
    | cons r T ih =>
        intro hT
        obtain ⟨R, hR⟩ := ih fun s hs => hT s (List.mem_cons_of_mem _ hs)
        obtain ⟨Q, hQ⟩ := hT r List.mem_cons_self
        refine ⟨max R Q, fun s hs y hy => ?_⟩
        rcases List.mem_cons.1 hs with rfl | hs
        · obtain ⟨a, b, c⟩ := hQ y hy
          exact ⟨le_max_of_le_right a, le_max_of_le_right b, le_max_of_le_right c⟩
        · obtain ⟨a, b, c⟩ := hR s hs y hy
          exact ⟨le_max_of_le_left a, le_max_of_le_left b, le_max_of_le_left c⟩
  obtain ⟨R, hR⟩ := this S hb
  refine ⟨R, fun x hx => ⟨?_, ?_, ?_⟩⟩
  · have := axis_bound (e := (1, 0, 0)) (d := (0, 1, 0)) hne hN hb (R := R)
      (fun r hr y hy => by simpa [dot3] using (hR r hr y hy).1) (by simp) (by simp [dot3]) hx
    simpa [dot3] using this
  · have := axis_bound (e := (0, 1, 0)) (d := (1, 0, 0)) hne hN hb (R := R)
      (fun r hr y hy => by simpa [dot3] using (hR r hr y hy).2.1) (by simp) (by simp [dot3]) hx
    simpa [dot3] using this
  · have := axis_bound (e := (0, 0, 1)) (d := (1, 0, 0)) hne hN hb (R := R)
      (fun r hr y hy => by simpa [dot3] using (hR r hr y hy).2.2) (by simp) (by simp [dot3]) hx
    simpa [dot3] using this

/-! ## The faces returned -/

/-- `Vs` describes the boundary of the set of the rows `S`: `rs` are the rows that are attained on the set, and for
each of them there is a closed path running once through the vertices of that face. -/
def FacesOf (S rs : List (Ineq3 K)) (Vs : List (List (V3 K))) : Prop :=
  (∀ r, r ∈ rs ↔ r ∈ S ∧ dot3 r.1 r.1 ≠ 0 ∧ ∃ x, Face (Sat3 S) r x) ∧
    List.Forall₂ (fun r V => ∃ C, FaceList r.1 (Face (Sat3 S) r) C ∧ V = closePath C) rs Vs

theorem mem_closePath {α : Type*} (C : List α) (v : α) : v ∈ closePath C ↔ v ∈ C := by
  unfold closePath
  split_ifs
  · rfl
  · rw [List.mem_append]
    refine ⟨fun h => h.elim id fun h => ?_, Or.inl⟩
    rw [Option.mem_toList] at h
    exact List.mem_of_head? h

theorem forall₂_left {α β : Type*} {R : α → β → Prop} {l : List α} {m : List β} (h : List.Forall₂ R l m) {a : α}
    (ha : a ∈ l) : ∃ b ∈ m, R a b := by
  induction h with
  | nil => cases ha
  | cons hab _ ih =>
      rcases List.mem_cons.1 ha with rfl | ha
      · exact ⟨_, List.mem_cons_self, hab⟩
      · obtain ⟨b, hb, h⟩ := ih ha
        exact ⟨b, List.mem_cons_of_mem _ hb, h⟩

theorem forall₂_right {α β : Type*} {R : α → β → Prop} {l : List α} {m : List β} (h : List.Forall₂ R l m) {b : β}
    (hb : b ∈ m) : ∃ a ∈ l, R a b := by
  induction h with
  | nil => cases hb
  | cons hab _ ih =>
      rcases List.mem_cons.1 hb with rfl | hb
      · exact ⟨_, List.mem_cons_self, hab⟩
      · obtain ⟨a, ha, h⟩ := ih hb
        exact ⟨a, List.mem_cons_of_mem _ ha, h⟩

theorem sat3_nonzero {S : List (Ineq3 K)} (hz : ∀ r ∈ S, dot3 r.1 r.1 = 0 → r.2 ≤ 0) :
    Sat3 (S.filter fun r => decide (dot3 r.1 r.1 ≠ 0)) = Sat3 S := by
  funext x
  refine propext ⟨fun hx r hr => ?_, fun hx r hr => hx r (List.mem_of_mem_filter hr)⟩
  by_cases h0 : dot3 r.1 r.1 = 0
  · have := hz r hr h0
    rw [dot3_self_eq_zero h0]
    simpa [dot3] using this
  · exact hx r (List.mem_filter.2 ⟨hr, by simpa using h0⟩)

/-- The points on the paths are exactly the vertices of the set. -/
theorem FacesOf.vertices {S rs : List (Ineq3 K)} {Vs : List (List (V3 K))} (h : FacesOf S rs Vs)
    (hz : ∀ r ∈ S, dot3 r.1 r.1 = 0 → r.2 ≤ 0) (v : V3 K) :
    (∃ V ∈ Vs, v ∈ V) ↔ Extreme3 (Sat3 S) v := by
  obtain ⟨hrs, hf⟩ := h
  constructor
  · rintro ⟨V, hV, hv⟩
    obtain ⟨r, hr, C, hC, rfl⟩ := forall₂_right hf hV
    rw [mem_closePath, hC.2.1] at hv
    exact ((extreme_face ((hrs r).1 hr).1 v).1 hv).1
  · intro hv
    have hT := sat3_nonzero hz
    obtain ⟨r, hr, he⟩ := extreme_on (S := S.filter fun r => decide (dot3 r.1 r.1 ≠ 0)) (hT ▸ hv)
    obtain ⟨hr, h0⟩ := List.mem_filter.1 hr
    obtain ⟨V, hV, C, hC, rfl⟩ := forall₂_left hf ((hrs r).2 ⟨hr, by simpa using h0, v, hv.1, he⟩)
    refine ⟨_, hV, ?_⟩
    rw [mem_closePath, hC.2.1]
    exact (extreme_face hr v).2 ⟨hv, he⟩

/-- `V` outlines the set `P` of space:
* the points on the paths are exactly the vertices of `P`;
* every path goes once round the vertices of a nonempty face of `P`;
* every plane that bounds `P` and has three points of `P` not on one line gets a path. -/
def Outlined (P : V3 K → Prop) (Vs : List (List (V3 K))) : Prop :=
  (∀ v, (∃ V ∈ Vs, v ∈ V) ↔ Extreme3 P v) ∧
  (∀ V ∈ Vs, ∃ r C, dot3 r.1 r.1 ≠ 0 ∧ (∀ x, P x → r.2 ≤ dot3 r.1 x) ∧ (∃ x, Face P r x) ∧
    FaceList r.1 (Face P r) C ∧ V = closePath C) ∧
  ∀ r : Ineq3 K, dot3 r.1 r.1 ≠ 0 → (∀ x, P x → r.2 ≤ dot3 r.1 x) → ∀ a b c, Face P r a → Face P r b → Face P r c →
    cross3 (sub3 b a) (sub3 c a) ≠ (0, 0, 0) → ∃ V ∈ Vs, ∀ v, v ∈ V ↔ Extreme3 (Face P r) v

/-- A vector orthogonal to two vectors is a multiple of their cross product. -/
theorem along_cross {s u v : V3 K} (h1 : dot3 s u = 0) (h2 : dot3 s v = 0) (x : V3 K) :
    dot3 (cross3 u v) (cross3 u v) * dot3 s x = dot3 s (cross3 u v) * dot3 (cross3 u v) x := by
  simp only [dot3, cross3] at *
  have e1 : s.2.1 * (u.1 * v.2.1 - u.2.1 * v.1) - s.2.2 * (u.2.2 * v.1 - u.1 * v.2.2) = 0 := by
    linear_combination u.1 * h2 - v.1 * h1
  have e2 : s.2.2 * (u.2.1 * v.2.2 - u.2.2 * v.2.1) - s.1 * (u.1 * v.2.1 - u.2.1 * v.1) = 0 := by
    linear_combination u.2.1 * h2 - v.2.1 * h1
  have e3 : s.1 * (u.2.2 * v.1 - u.1 * v.2.2) - s.2.1 * (u.2.1 * v.2.2 - u.2.2 * v.2.1) = 0 := by
    linear_combination u.2.2 * h2 - v.2.2 * h1
  generalize u.1 * v.2.1 - u.2.1 * v.1 = n3 at *
  generalize u.2.2 * v.1 - u.1 * v.2.2 = n2 at *
  generalize u.2.1 * v.2.2 - u.2.2 * v.2.1 = n1 at *
  linear_combination (x.2.1 * n3 - x.2.2 * n2) * e1 + (x.2.2 * n1 - x.1 * n3) * e2 + (x.1 * n2 - x.2.1 * n1) * e3

/-- A plane that bounds the set and has three points of it not on one line is the plane of a row. -/
theorem facet_row {S : List (Ineq3 K)} (hS : ∀ s ∈ S, dot3 s.1 s.1 ≠ 0) {r : Ineq3 K} (h0 : dot3 r.1 r.1 ≠ 0)
    (hr : ∀ x, Sat3 S x → r.2 ≤ dot3 r.1 x) {a b c : V3 K} (ha : Face (Sat3 S) r a) (hb : Face (Sat3 S) r b)
    (hc : Face (Sat3 S) r c) (hn : cross3 (sub3 b a) (sub3 c a) ≠ (0, 0, 0)) :
    ∃ s ∈ S, ∀ x, dot3 s.1 x = s.2 ↔ dot3 r.1 x = r.2 := by
  set m : V3 K := ((a.1 + b.1 + c.1) / 3, (a.2.1 + b.2.1 + c.2.1) / 3, (a.2.2 + b.2.2 + c.2.2) / 3) with hm
  have hdot : ∀ s : V3 K, dot3 s m = (dot3 s a + dot3 s b + dot3 s c) / 3 := by
    intro s
    simp only [dot3, hm]
    ring
  have hrm : dot3 r.1 m = r.2 := by rw [hdot, ha.2, hb.2, hc.2]; ring
  have htight : ∃ s ∈ S, dot3 s.1 m = s.2 := by
    by_contra hno
    push Not at hno
    obtain ⟨t, ht, -, h2⟩ := wiggle3 S m r.1 fun s hs => by
      refine lt_of_le_of_ne ?_ (Ne.symm (hno s hs))
      have := ha.1 s hs
      have := hb.1 s hs
      have := hc.1 s hs
      rw [hdot]
      linarith
    have := hr _ h2
    rw [dot3_mv, hrm] at this
    have := mul_pos ht (dot3_self_pos h0)
    linarith
  obtain ⟨s, hs, hsm⟩ := htight
  have ea := ha.1 s hs
  have eb := hb.1 s hs
  have ec := hc.1 s hs
  rw [hdot] at hsm
  have sa : dot3 s.1 a = s.2 := by linarith
  have sb : dot3 s.1 b = s.2 := by linarith
  have sc : dot3 s.1 c = s.2 := by linarith
  have hsub : ∀ q u v : V3 K, dot3 q (sub3 u v) = dot3 q u - dot3 q v := by
    intro q u v
    simp only [dot3, sub3]
    ring
  set n := cross3 (sub3 b a) (sub3 c a) with hnd
  have hnn : dot3 n n ≠ 0 := fun h => hn (dot3_self_eq_zero h)
  have key : ∀ q : Ineq3 K, dot3 q.1 q.1 ≠ 0 → dot3 q.1 a = q.2 → dot3 q.1 b = q.2 → dot3 q.1 c = q.2 → ∀ x,
      dot3 q.1 x = q.2 ↔ dot3 n (sub3 x a) = 0 := by
    intro q hq qa qb qc x
    have hx := along_cross (s := q.1) (u := sub3 b a) (v := sub3 c a) (by rw [hsub, qa, qb, sub_self])
      (by rw [hsub, qa, qc, sub_self])
    have hqn : dot3 q.1 n ≠ 0 := by
      intro h
      have := hx q.1
      rw [← hnd, h, zero_mul] at this
      exact (mul_ne_zero hnn hq) this
    have := hx (sub3 x a)
    rw [← hnd, hsub, qa] at this
    constructor
    · intro h
      rw [h, sub_self, mul_zero] at this
      exact (mul_eq_zero.1 this.symm).resolve_left hqn
    · intro h
      rw [h, mul_zero] at this
      exact sub_eq_zero.1 ((mul_eq_zero.1 this).resolve_left hnn)
  exact ⟨s, hs, fun x => by rw [key s (hS s hs) sa sb sc, key r h0 ha.2 hb.2 hc.2]⟩

/-- The paths outline the set. -/
theorem FacesOf.outlined {S rs : List (Ineq3 K)} {Vs : List (List (V3 K))} (h : FacesOf S rs Vs)
    (hz : ∀ r ∈ S, dot3 r.1 r.1 = 0 → r.2 ≤ 0) : Outlined (Sat3 S) Vs := by
  refine ⟨h.vertices hz, fun V hV => ?_, fun r h0 hr a b c ha hb hc hn => ?_⟩
  · obtain ⟨r, hr, C, hC, e⟩ := forall₂_right h.2 hV
    obtain ⟨hrS, h0, hx⟩ := (h.1 r).1 hr
    exact ⟨r, C, h0, fun x hx => hx r hrS, hx, hC, e⟩
  · have hT := sat3_nonzero hz
    obtain ⟨s, hs, he⟩ := facet_row (S := S.filter fun r => decide (dot3 r.1 r.1 ≠ 0))
      (fun s hs => by simpa using (List.mem_filter.1 hs).2) h0 (by rw [hT]; exact hr) (by rw [hT]; exact ha)
      (by rw [hT]; exact hb) (by rw [hT]; exact hc) hn
    obtain ⟨hsS, hs0⟩ := List.mem_filter.1 hs
    obtain ⟨V, hV, C, hC, rfl⟩ := forall₂_left h.2 ((h.1 s).2 ⟨hsS, by simpa using hs0, a, ha.1, (he a).2 ha.2⟩)
    refine ⟨_, hV, fun v => ?_⟩
    rw [mem_closePath, hC.2.1]
    rw [show Face (Sat3 S) s = Face (Sat3 S) r from funext fun x => propext (and_congr Iff.rfl (he x))]

theorem numbered_snd {α : Type*} (S : List α) : (numbered S).map Prod.snd = S := by
  unfold numbered
  rw [List.map_map]
  exact List.zipIdx_map_fst 0 S

/-- C83, full statement: for a bounded set `lineqs3D` returns one closed path for every boundary plane that touches
the set, running once through the vertices of that face, whatever the window and the earlier calls. -/
def C83_statement (eps : K) (S : List (Ineq3 K)) : Prop :=
  BoundedSet3 (Sat3 S) → ∃ Vs rs, (∀ bounds st, lineqs3D eps S bounds st = (.ok Vs, st)) ∧ rs.Nodup ∧ FacesOf S rs Vs

/-- C83, partial: the statement holds for systems whose rows are kept by the preprocessing (`Clean3`), have at most
twelve decimals in the variables of each face (`Exact3`) and whose faces have vertices more than `1e-8` apart
(`Separated3`), in exact point arithmetic.  Missing: other systems (`C83_false`). -/
theorem C83_faces_partial {S : List (Ineq3 K)} (hc : Clean3 S) (hex : Exact3 S) (hsep : Separated3 S) :
    C83_statement 0 S := by
  intro hb
  have hm := (prepare3_spec hc).2
  have hN : ∀ r ∈ prepare3 S, dot3 r.1 r.1 ≠ 0 := fun r hr => ((hm r).1 hr).2
  have hsat := sat3_prepare hc
  have hlen := two_rows hN (by rw [hsat]; exact hb)
  have hL : ∀ p ∈ numbered (prepare3 S), (prepare3 S)[p.1]? = some p.2 := fun p hp => (mem_numbered _ _ _).1 hp
  have hbf : ∀ r, BoundedSet3 (Face (Sat3 S) r) := by
    obtain ⟨R, hR⟩ := hb
    exact fun r => ⟨R, fun x hx => hR x hx.1⟩
  obtain ⟨PP, fin, h1, h2, h3, -⟩ := faceLoop_spec hlen (exact3_prepare hc hex) hN _ hL
  obtain ⟨rs, Vs, g1, g2, g3, g4⟩ := pathsLoop_spec hlen (exact3_prepare hc hex) hN
    (by rw [hsat]; exact fun r _ => hbf r) (separated3_prepare hc hsep) _ hL
  have hfin : fin = true := by
    rw [h3, hsat]
    exact fun p _ => hbf _
  rw [numbered_snd] at g2 g3
  rw [hsat] at g3 g4 h2
  have hfaces : FacesOf S rs Vs := by
    refine ⟨fun r => ⟨fun hr => ?_, fun hr => ?_⟩, g4⟩
    · have hr' := g2.subset hr
      exact ⟨((hm r).1 hr').1, ((hm r).1 hr').2, (g3 r hr').1 hr⟩
    · exact (g3 r ((hm r).2 ⟨hr.1, hr.2.1⟩)).2 hr.2.2
  have hnd : rs.Nodup := g2.nodup (prepare3_spec hc).1
  unfold lineqs3D
  dsimp only
  rw [h1]
  cases PP with
  | nil =>
      refine ⟨Vs, rs, fun _ _ => ?_, hnd, hfaces⟩
      have : rs = [] := by
        rw [List.eq_nil_iff_forall_not_mem]
        intro r hr
        obtain ⟨x, hx⟩ := (g3 r (g2.subset hr)).1 hr
        obtain ⟨k, hk⟩ := List.getElem?_of_mem (g2.subset hr)
        exact h2.1 rfl (k, r) ((mem_numbered _ _ _).2 hk) x hx
      subst this
      cases g4
      rfl
  | cons p PP =>
      rw [hfin]
      exact ⟨Vs, rs, fun _ _ => by dsimp only; rw [g1], hnd, hfaces⟩

/-- C83, partial, without reference to the rows: the points returned are exactly the vertices of the set, every path
surrounds a face, every side of the set is surrounded, and nothing is returned exactly for the empty set. -/
theorem C83_vertices_partial {S : List (Ineq3 K)} (hc : Clean3 S) (hex : Exact3 S) (hsep : Separated3 S)
    (hb : BoundedSet3 (Sat3 S)) :
    ∃ Vs, (∀ bounds st, lineqs3D 0 S bounds st = (.ok Vs, st)) ∧ Outlined (Sat3 S) Vs ∧
      (Vs = [] ↔ ∀ x, ¬ Sat3 S x) := by
  obtain ⟨Vs, rs, h1, -, h2⟩ := C83_faces_partial hc hex hsep hb
  refine ⟨Vs, h1, h2.outlined hc.zero, fun h x hx => ?_, fun h => ?_⟩
  · have hm := (prepare3_spec hc).2
    have hN : ∀ r ∈ prepare3 S, dot3 r.1 r.1 ≠ 0 := fun r hr => ((hm r).1 hr).2
    have hsat := sat3_prepare hc
    have hlen := two_rows hN (by rw [hsat]; exact hb)
    obtain ⟨r, hr, y, hy⟩ := exists_face (S := prepare3 S) (by intro h0; rw [h0] at hlen; simp at hlen) hN
      (by rw [hsat]; exact hx)
    rw [hsat] at hy
    obtain ⟨V, hV, -⟩ := forall₂_left h2.2 ((h2.1 r).2 ⟨((hm r).1 hr).1, hN r hr, y, hy⟩)
    rw [h] at hV
    cases hV
  · rw [List.eq_nil_iff_forall_not_mem]
    intro V hV
    obtain ⟨r, hr, -⟩ := forall₂_right h2.2 hV
    obtain ⟨-, -, x, hx⟩ := (h2.1 r).1 hr
    exact h x hx.1

/-! ## What holds for every system -/

/-- Rounding and the threshold of `clear_zero_rows` weaken a row of the plane by at most this much. -/
theorem clear2_near {S : List (Ineq2 K)} {T : List (Ineq2 K)} (h : clear2 S = (T, true)) {p : K × K} (hp : Sat2 T p)
    {r : Ineq2 K} (hr : r ∈ S) : r.2 - 3 / 2 / 10 ^ 12 * (1 + |p.1| + |p.2|) ≤ dot2 r.1 p := by
  unfold clear2 clearZeroRows at h
  dsimp only at h
  injection h with h1 h2
  rw [Bool.not_eq_true', List.any_eq_false] at h2
  have hm : aroundRow (toIneq r) ∈ (S.map fun r : Ineq2 K => ((![r.1.1, r.1.2], r.2) : Ineq K 2)).map aroundRow :=
    List.mem_map_of_mem (List.mem_map_of_mem (f := fun r : Ineq2 K => ((![r.1.1, r.1.2], r.2) : Ineq K 2)) hr)
  have n1 := abs_le.1 (around12_near r.1.1)
  have n2 := abs_le.1 (around12_near r.1.2)
  have n3 := abs_le.1 (around12_near r.2)
  have mulb : ∀ c d q : K, |c| ≤ d → -(d * |q|) ≤ c * q := by
    intro c d q hc
    have := mul_le_mul_of_nonneg_right hc (abs_nonneg q)
    rw [← abs_mul] at this
    linarith [neg_abs_le (c * q)]
  have q1 := abs_nonneg p.1
  have q2 := abs_nonneg p.2
  by_cases hc : smallCount (aroundRow (toIneq r)) = 2
  · have h3 := h2 _ hm
    rw [hc] at h3
    have h4 : around12 r.2 ≤ 0 := by
      simp only [beq_self_eq_true, Bool.true_and, decide_eq_true_eq, not_lt] at h3
      exact h3
    rw [smallCount_eq_iff] at hc
    have c1 : |around12 r.1.1| ≤ 1 / 10 ^ 12 := hc 0
    have c2 : |around12 r.1.2| ≤ 1 / 10 ^ 12 := hc 1
    have e1 := mulb r.1.1 (3 / 2 / 10 ^ 12) p.1 (by
      have := abs_sub_abs_le_abs_sub r.1.1 (around12 r.1.1)
      rw [abs_sub_comm] at this
      have := around12_near r.1.1
      linarith)
    have e2 := mulb r.1.2 (3 / 2 / 10 ^ 12) p.2 (by
      have := abs_sub_abs_le_abs_sub r.1.2 (around12 r.1.2)
      rw [abs_sub_comm] at this
      have := around12_near r.1.2
      linarith)
    simp only [dot2]
    have : (0 : K) < 1 / 10 ^ 12 := by positivity
    linarith
  · have hT : ((around12 r.1.1, around12 r.1.2), around12 r.2) ∈ T := by
      rw [← h1]
      refine List.mem_map.2 ⟨aroundRow (toIneq r), List.mem_filter.2 ⟨hm, by simpa using hc⟩, rfl⟩
    have := hp _ hT
    simp only [dot2] at this ⊢
    have e1 := mulb (r.1.1 - around12 r.1.1) (1 / 2 / 10 ^ 12) p.1 (by rw [abs_sub_comm]; exact around12_near _)
    have e2 := mulb (r.1.2 - around12 r.1.2) (1 / 2 / 10 ^ 12) p.2 (by rw [abs_sub_comm]; exact around12_near _)
    have : (0 : K) < 1 / 10 ^ 12 := by positivity
    nlinarith

/-- The points of a path lie on the plane of its row and nearly satisfy the other rows. -/
theorem facePath_near {S : List (Ineq3 K)} {k : Nat} {r : Ineq3 K} (hk : S[k]? = some r) {V : List (V3 K)}
    (h : facePath 0 S k r = .ok (some V)) :
    ∀ x ∈ V, dot3 r.1 x = r.2 ∧ ∀ s ∈ S,
      s.2 - 3 / 2 / 10 ^ 12 * (1 + |(cvCoords r x).1| + |(cvCoords r x).2|) ≤ dot3 s.1 x := by
  unfold facePath changeVariable at h
  by_cases hl : S.length ≤ 1
  · rw [if_pos hl] at h; cases h
  rw [if_neg hl] at h
  by_cases h0 : dot3 r.1 r.1 = 0
  · rw [if_pos h0] at h; cases h
  rw [if_neg h0] at h
  rcases hc : clear2 ((S.eraseIdx k).map (cvRow r)) with ⟨T, _ | _⟩
  · rw [hc] at h; cases h
  rw [hc] at h
  dsimp only at h
  rcases hE : boundaryIntervals 0 T with _ | _ | _ | ⟨e, E⟩ <;> rw [hE] at h
  · cases h
  · cases h
  · cases h
  dsimp only at h
  rcases hs : segsOf (e :: E) with _ | segs <;> rw [hs] at h
  · cases h
  dsimp only at h
  rcases hp : intervals2Path segs with _ | P <;> rw [hp] at h
  · cases h
  injection h with h
  injection h with h
  subst h
  intro x hx
  obtain ⟨p, hpP, rfl⟩ := List.mem_map.1 hx
  obtain ⟨sg, hsg, hpe⟩ := intervals2Path_mem segs P hp p hpP
  obtain ⟨e', he', h1, h2⟩ := segsOf_mem _ _ hs sg hsg
  have hsat : Sat2 T p := edge_ends_solve ((C50_edges 0 T _ hE).1 e' he') p (by
    rcases hpe with rfl | rfl
    · exact Or.inl h1
    · exact Or.inr h2)
  refine ⟨point_on h0 p, fun s hsS => ?_⟩
  rw [coords_point h0]
  have hpos : (0 : K) ≤ 3 / 2 / 10 ^ 12 * (1 + |p.1| + |p.2|) := by positivity
  by_cases hse : s ∈ S.eraseIdx k
  · have := clear2_near hc hsat (List.mem_map_of_mem (f := cvRow r) hse)
    simp only [cvRow, dot2] at this
    rw [dot3_point]
    linarith
  · have : s = r := by
      obtain ⟨j, hj⟩ := List.getElem?_of_mem hsS
      by_cases hjk : j = k
      · subst hjk
        rw [hk] at hj
        injection hj with hj
        exact hj.symm
      · refine absurd (List.mem_eraseIdx_iff_getElem?.2 ⟨j, hjk, hj⟩) hse
    rw [this, point_on h0]
    linarith

/-- C83, partial (every system, every window): each point returned lies exactly on the plane of a working row (a row
of the rounded system or of the window), and violates the other working rows by at most
`1.5e-12 (1 + |u| + |v|)`, where `u`, `v` are its coordinates in the plane.  The coordinates are large when the
coefficients of the row are small, see `C83_false`. -/
theorem C83_near_partial (S : List (Ineq3 K)) (bounds : Option (V3 K × V3 K)) (st : List K) (Vs : List (List (V3 K)))
    (st' : List K) (h : lineqs3D 0 S bounds st = (.ok Vs, st')) :
    ∃ W, (W = [] ∨ ∃ lo hi, W = windowRows3 lo hi) ∧ ∀ V ∈ Vs, ∃ r ∈ prepare3 S ++ W, ∀ x ∈ V, dot3 r.1 x = r.2 ∧
      ∀ s ∈ prepare3 S ++ W,
        s.2 - 3 / 2 / 10 ^ 12 * (1 + |(cvCoords r x).1| + |(cvCoords r x).2|) ≤ dot3 s.1 x := by
  have main : ∀ (T : List (Ineq3 K)) (L : List (Nat × Ineq3 K)), (∀ p ∈ L, T[p.1]? = some p.2) →
      ∀ Vs, pathsLoop 0 T L = .ok Vs → ∀ V ∈ Vs, ∃ r ∈ T, ∀ x ∈ V, dot3 r.1 x = r.2 ∧ ∀ s ∈ T,
        s.2 - 3 / 2 / 10 ^ 12 * (1 + |(cvCoords r x).1| + |(cvCoords r x).2|) ≤ dot3 s.1 x := by
    intro T L
    induction L with
    | nil =>
        intro _ Vs h V hV
        injection h with h
        subst h
        cases hV
    | cons q L ih =>
        intro hL Vs h V hV
        obtain ⟨k, r⟩ := q
        have hk := hL (k, r) List.mem_cons_self
        have ih := ih fun p hp => hL p (List.mem_cons_of_mem _ hp)
        unfold pathsLoop at h
        rcases hf : facePath 0 T k r with _ | o <;> rw [hf] at h
        · cases h
        dsimp only at h
        rcases hp : pathsLoop 0 T L with _ | Ps <;> rw [hp] at h
        · cases h
        rcases o with _ | P
        · injection h with h
          subst h
          exact ih _ hp V hV
        · injection h with h
          subst h
          rcases List.mem_cons.1 hV with rfl | hV
          · exact ⟨r, List.mem_of_getElem? hk, facePath_near hk hf⟩
          · exact ih _ hp V hV
  have hnum : ∀ T : List (Ineq3 K), ∀ p ∈ numbered T, T[p.1]? = some p.2 := fun T p hp => (mem_numbered _ _ _).1 hp
  unfold lineqs3D at h
  dsimp only at h
  rcases hf : faceLoop 0 (prepare3 S) (numbered (prepare3 S)) with _ | ⟨_ | ⟨p, PP⟩, _ | _⟩ <;> rw [hf] at h
  · cases h
  · injection h with h1 h2
    injection h1 with h1
    subst h1
    exact ⟨[], Or.inl rfl, fun V hV => by cases hV⟩
  · injection h with h1 h2
    injection h1 with h1
    subst h1
    exact ⟨[], Or.inl rfl, fun V hV => by cases hV⟩
  · cases bounds with
    | none =>
        dsimp only at h
        rcases hp : ppPoints (p :: PP) with _ | P <;> rw [hp] at h
        · cases h
        injection h with h1 h2
        exact ⟨_, Or.inr ⟨_, _, rfl⟩, main _ _ (hnum _) Vs h1⟩
    | some w =>
        injection h with h1 h2
        exact ⟨_, Or.inr ⟨_, _, rfl⟩, main _ _ (hnum _) Vs h1⟩
  · injection h with h1 h2
    refine ⟨[], Or.inl rfl, ?_⟩
    rw [List.append_nil]
    exact main _ _ (hnum _) Vs h1

/-! ## Examples and counterexamples -/

/-- The box `[0, 1] × [0, 2] × [0, 3]` with all rows multiplied by `s`. -/
def boxRows (s : ℚ) : List (Ineq3 ℚ) :=
  [((s, 0, 0), 0), ((0, s, 0), 0), ((0, 0, s), 0), ((-s, 0, 0), -s), ((0, -s, 0), -(2 * s)), ((0, 0, -s), -(3 * s))]

theorem sat_boxRows {s : ℚ} (hs : 0 < s) (x : V3 ℚ) :
    Sat3 (boxRows s) x ↔ (0 ≤ x.1 ∧ x.1 ≤ 1) ∧ (0 ≤ x.2.1 ∧ x.2.1 ≤ 2) ∧ 0 ≤ x.2.2 ∧ x.2.2 ≤ 3 := by
  unfold Sat3 boxRows
  simp only [List.forall_mem_cons, List.not_mem_nil, false_implies, implies_true, and_true, dot3, zero_mul, add_zero,
    zero_add, neg_mul, neg_le_neg_iff]
  rw [mul_nonneg_iff_of_pos_left hs, mul_nonneg_iff_of_pos_left hs, mul_nonneg_iff_of_pos_left hs,
    mul_le_iff_le_one_right hs, mul_comm 2 s, mul_comm 3 s, mul_le_mul_iff_right₀ hs, mul_le_mul_iff_right₀ hs]
  tauto

theorem bounded_boxRows {s : ℚ} (hs : 0 < s) : BoundedSet3 (Sat3 (boxRows s)) := by
  refine ⟨3, fun x hx => ?_⟩
  obtain ⟨⟨a, b⟩, ⟨c, d⟩, e, f⟩ := (sat_boxRows hs x).1 hx
  refine ⟨abs_le.2 ⟨?_, ?_⟩, abs_le.2 ⟨?_, ?_⟩, abs_le.2 ⟨?_, ?_⟩⟩ <;> linarith

/-- `lineqs3D` returns a point with the property `q`. -/
def returnsPoint (r : Hist ℚ (List (List (V3 ℚ)))) (q : V3 ℚ → Bool) : Bool :=
  match r.1 with
  | .ok Vs => Vs.any fun V => V.any q
  | .error _ => false

/-- The system of a tetrahedron with a corner cut off. -/
def cutRows : List (Ineq3 ℚ) :=
  [((1, 0, 0), 0), ((0, 1, 0), 0), ((0, 0, 1), 0), ((-1, -1, -1), -3), ((2, 1, 1), 1)]

theorem outside_refutes {eps : ℚ} {S : List (Ineq3 ℚ)} (hb : BoundedSet3 (Sat3 S)) (hz : ∀ r ∈ S, dot3 r.1 r.1 = 0 → r.2 ≤ 0)
    {q : V3 ℚ → Bool} (hq : ∀ v, q v = true → ¬ Sat3 S v)
    (hr : returnsPoint (lineqs3D eps S none []) q = true) : ¬ C83_statement eps S := by
  intro h
  obtain ⟨Vs, rs, h1, -, h2⟩ := h hb
  rw [h1] at hr
  obtain ⟨V, hV, hm⟩ := List.any_eq_true.1 hr
  obtain ⟨v, hv, hqv⟩ := List.any_eq_true.1 hm
  exact hq v hqv ((h2.vertices hz v).1 ⟨V, hV, hv⟩).1

/-- C83: false.
* For the box with all rows multiplied by `1e-4` the coefficients of order `1e-12` that appear in the variables of
  the faces are set to zero; points outside the box, with second coordinate above 8, are returned.
* With the factor `1e-6` the call fails.
* `2x + y + z ≥ 1` has the same differences `a - b` as `x ≥ 0` and is dropped as a repeated row: the origin, which
  violates it, is returned. -/
theorem C83_false :
    (¬ C83_statement (0 : ℚ) (boxRows (1 / 10 ^ 4)) ∧ ¬ C83_statement (1 / 10 ^ 301 : ℚ) (boxRows (1 / 10 ^ 4))) ∧
    (lineqs3D (0 : ℚ) (boxRows (1 / 10 ^ 6)) none []).1.toOption = none ∧
    (¬ C83_statement (0 : ℚ) cutRows ∧ ¬ C83_statement (1 / 10 ^ 301 : ℚ) cutRows) := by
  have hcut : BoundedSet3 (Sat3 cutRows) := by
    refine ⟨3, fun x hx => ?_⟩
    have a := hx ((1, 0, 0), 0) (by simp [cutRows])
    have b := hx ((0, 1, 0), 0) (by simp [cutRows])
    have c := hx ((0, 0, 1), 0) (by simp [cutRows])
    have d := hx ((-1, -1, -1), -3) (by simp [cutRows])
    simp only [dot3] at a b c d
    refine ⟨abs_le.2 ⟨?_, ?_⟩, abs_le.2 ⟨?_, ?_⟩, abs_le.2 ⟨?_, ?_⟩⟩ <;> linarith
  have hout : ∀ v : V3 ℚ, decide (v = (0, 0, 0)) = true → ¬ Sat3 cutRows v := fun v hv h => by
    rw [of_decide_eq_true hv] at h
    have := h ((2, 1, 1), 1) (by simp [cutRows])
    norm_num [dot3] at this
  have hbox : ∀ v : V3 ℚ, decide (8 < v.2.1) = true → ¬ Sat3 (boxRows (1 / 10 ^ 4)) v := fun v hv h => by
    have := ((sat_boxRows (by norm_num) _).1 h).2.1.2
    have := of_decide_eq_true hv
    linarith
  refine ⟨⟨outside_refutes (bounded_boxRows (by norm_num)) (by decide +kernel) hbox (by decide +kernel),
    outside_refutes (bounded_boxRows (by norm_num)) (by decide +kernel) hbox (by decide +kernel)⟩, by decide +kernel,
    outside_refutes hcut (by decide +kernel) hout (by decide +kernel),
    outside_refutes hcut (by decide +kernel) hout (by decide +kernel)⟩

theorem onGrid_iff (x : K) : OnGrid x ↔ around12 x = x :=
  ⟨around12_of_onGrid, fun h => h ▸ around12_onGrid x⟩

instance (x : ℚ) : Decidable (OnGrid x) := decidable_of_iff _ (onGrid_iff x).symm

instance {d : Nat} (r : Ineq ℚ d) : Decidable (ExactRow r) := by
  unfold ExactRow; infer_instance

/-- A box in the plane whose sides are zero or longer than `1e-8` has separated vertices. -/
theorem separated_box {P : ℚ × ℚ → Prop} (l h : ℚ × ℚ)
    (hP : ∀ x, P x ↔ (l.1 ≤ x.1 ∧ x.1 ≤ h.1) ∧ l.2 ≤ x.2 ∧ x.2 ≤ h.2) (h1 : l.1 = h.1 ∨ 1 / 10 ^ 8 < h.1 - l.1)
    (h2 : l.2 = h.2 ∨ 1 / 10 ^ 8 < h.2 - l.2) : Separated P := by
  intro u v hu hv hne
  obtain ⟨hu1, hu2⟩ := box_corner hP u hu
  obtain ⟨hv1, hv2⟩ := box_corner hP v hv
  unfold maxDist
  by_cases e : u.1 = v.1
  · have e2 : u.2 ≠ v.2 := fun e2 => hne (Prod.ext e e2)
    refine lt_of_lt_of_le ?_ (le_max_right _ _)
    rcases hu2 with a | a <;> rcases hv2 with b | b <;> rw [a, b] at e2 ⊢
    · exact absurd rfl e2
    · rw [abs_sub_comm]; exact (h2.resolve_left e2).trans_le (le_abs_self _)
    · exact (h2.resolve_left (Ne.symm e2)).trans_le (le_abs_self _)
    · exact absurd rfl e2
  · refine lt_of_lt_of_le ?_ (le_max_left _ _)
    rcases hu1 with a | a <;> rcases hv1 with b | b <;> rw [a, b] at e ⊢
    · exact absurd rfl e
    · rw [abs_sub_comm]; exact (h1.resolve_left e).trans_le (le_abs_self _)
    · exact (h1.resolve_left (Ne.symm e)).trans_le (le_abs_self _)
    · exact absurd rfl e

theorem clean_box : Clean3 (boxRows 1) := ⟨by decide +kernel, by decide +kernel, by decide +kernel⟩

theorem exact_box : Exact3 (boxRows 1) := by unfold Exact3; decide +kernel

theorem separated_boxRows : Separated3 (boxRows 1) := by
  have hiff := sat_boxRows (s := 1) one_pos
  intro r hr _
  simp only [boxRows, List.mem_cons, List.not_mem_nil, or_false] at hr
  rcases hr with rfl | rfl | rfl | rfl | rfl | rfl
  · refine separated_box (0, -2) (3, 0) (fun p => ?_) (by norm_num) (by norm_num)
    simp only [Face, hiff]
    norm_num [cvPoint, cvOrigin, cvFirst, cvSecond, cross3, dot3]
    constructor <;> rintro ⟨⟨a, b⟩, c, d⟩ <;> refine ⟨⟨?_, ?_⟩, ?_, ?_⟩ <;> linarith
  · refine separated_box (-3, -1) (0, 0) (fun p => ?_) (by norm_num) (by norm_num)
    simp only [Face, hiff]
    norm_num [cvPoint, cvOrigin, cvFirst, cvSecond, cross3, dot3]
    constructor <;> rintro ⟨⟨a, b⟩, c, d⟩ <;> refine ⟨⟨?_, ?_⟩, ?_, ?_⟩ <;> linarith
  · refine separated_box (0, -1) (2, 0) (fun p => ?_) (by norm_num) (by norm_num)
    simp only [Face, hiff]
    norm_num [cvPoint, cvOrigin, cvFirst, cvSecond, cross3, dot3]
    constructor <;> rintro ⟨⟨a, b⟩, c, d⟩ <;> refine ⟨⟨?_, ?_⟩, ?_, ?_⟩ <;> linarith
  · refine separated_box (-3, -2) (0, 0) (fun p => ?_) (by norm_num) (by norm_num)
    simp only [Face, hiff]
    norm_num [cvPoint, cvOrigin, cvFirst, cvSecond, cross3, dot3]
    constructor <;> rintro ⟨⟨a, b⟩, c, d⟩ <;> refine ⟨⟨?_, ?_⟩, ?_, ?_⟩ <;> linarith
  · refine separated_box (0, -1) (3, 0) (fun p => ?_) (by norm_num) (by norm_num)
    simp only [Face, hiff]
    norm_num [cvPoint, cvOrigin, cvFirst, cvSecond, cross3, dot3]
    constructor <;> rintro ⟨⟨a, b⟩, c, d⟩ <;> refine ⟨⟨?_, ?_⟩, ?_, ?_⟩ <;> linarith
  · refine separated_box (-2, -1) (0, 0) (fun p => ?_) (by norm_num) (by norm_num)
    simp only [Face, hiff]
    norm_num [cvPoint, cvOrigin, cvFirst, cvSecond, cross3, dot3]
    constructor <;> rintro ⟨⟨a, b⟩, c, d⟩ <;> refine ⟨⟨?_, ?_⟩, ?_, ?_⟩ <;> linarith

/-- The hypotheses of `C83_faces_partial` hold for the box; the value is computed as well. -/
example : C83_statement (0 : ℚ) (boxRows 1) ∧ BoundedSet3 (Sat3 (boxRows 1)) ∧
    (lineqs3D (0 : ℚ) (boxRows 1) none []).1.toOption.map (fun Vs => (Vs.length, Vs.head?)) =
      some (6, some [(0, 0, 0), (0, 0, 3), (0, 2, 3), (0, 2, 0), (0, 0, 0)]) :=
  ⟨C83_faces_partial clean_box exact_box separated_boxRows, bounded_boxRows one_pos, by decide +kernel⟩

end IntvalPy
