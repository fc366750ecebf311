import Verif.PropsLineqs3D

/-!
# Unbounded sets in space and IntLinIncR3 (C84, C85, C86)
-/

set_option autoImplicit false
set_option linter.unusedSectionVars false

namespace IntvalPy

open Spec

variable {K : Type*} [Field K] [LinearOrder K] [FloorRing K] [IsStrictOrderedRing K]

/-- The point lies in the window. -/
def InWindow3 (lo hi x : V3 K) : Prop :=
  (lo.1 ≤ x.1 ∧ x.1 ≤ hi.1) ∧ (lo.2.1 ≤ x.2.1 ∧ x.2.1 ≤ hi.2.1) ∧ lo.2.2 ≤ x.2.2 ∧ x.2.2 ≤ hi.2.2

theorem sat3_window (S : List (Ineq3 K)) (lo hi x : V3 K) :
    Sat3 (S ++ windowRows3 lo hi) x ↔ Sat3 S x ∧ InWindow3 lo hi x := by
  unfold Sat3 windowRows3 InWindow3
  simp only [List.forall_mem_append, List.forall_mem_cons, List.not_mem_nil, false_implies, implies_true, and_true,
    dot3, zero_mul, add_zero, zero_add, neg_mul, neg_le_neg_iff, one_mul]
  tauto

theorem windowRows3_nz {lo hi : V3 K} (r : Ineq3 K) (hr : r ∈ windowRows3 lo hi) : dot3 r.1 r.1 ≠ 0 := by
  simp only [windowRows3, List.mem_cons, List.not_mem_nil, or_false] at hr
  rcases hr with rfl | rfl | rfl | rfl | rfl | rfl <;> norm_num [dot3]

theorem window3_bounded (S : List (Ineq3 K)) (lo hi : V3 K) : BoundedSet3 (Sat3 (S ++ windowRows3 lo hi)) := by
  refine ⟨|lo.1| + |hi.1| + (|lo.2.1| + |hi.2.1|) + (|lo.2.2| + |hi.2.2|), fun x hx => ?_⟩
  obtain ⟨-, ⟨a, b⟩, ⟨c, d⟩, e, f⟩ := (sat3_window S lo hi x).1 hx
  have h1 := abs_nonneg lo.1
  have h2 := abs_nonneg hi.1
  have h3 := abs_nonneg lo.2.1
  have h4 := abs_nonneg hi.2.1
  have h5 := abs_nonneg lo.2.2
  have h6 := abs_nonneg hi.2.2
  have k1 := neg_abs_le lo.1
  have k2 := le_abs_self hi.1
  have k3 := neg_abs_le lo.2.1
  have k4 := le_abs_self hi.2.1
  have k5 := neg_abs_le lo.2.2
  have k6 := le_abs_self hi.2.2
  refine ⟨abs_le.2 ⟨?_, ?_⟩, abs_le.2 ⟨?_, ?_⟩, abs_le.2 ⟨?_, ?_⟩⟩ <;> linarith

/-- The first loop on an unbounded set. -/
theorem faceLoop_unbounded {S : List (Ineq3 K)} (hc : Clean3 S) (hex : Exact3 S) (hlen : 2 ≤ (prepare3 S).length)
    (hub : ¬ BoundedSet3 (Sat3 S)) :
    ∃ p PP, faceLoop 0 (prepare3 S) (numbered (prepare3 S)) = .ok (p :: PP, false) ∧
      ((∃ e ∈ p :: PP, e.isPoint) ↔ ∃ r ∈ S, dot3 r.1 r.1 ≠ 0 ∧ WholePlane (Sat3 S) r) := by
  have hm := (prepare3_spec hc).2
  have hN : ∀ r ∈ prepare3 S, dot3 r.1 r.1 ≠ 0 := fun r hr => ((hm r).1 hr).2
  have hsat := sat3_prepare hc
  have hL : ∀ p ∈ numbered (prepare3 S), (prepare3 S)[p.1]? = some p.2 := fun p hp => (mem_numbered _ _ _).1 hp
  have hne : prepare3 S ≠ [] := by intro h0; rw [h0] at hlen; simp at hlen
  obtain ⟨PP, fin, h1, h2, h3, h4⟩ := faceLoop_spec hlen (exact3_prepare hc hex) hN _ hL
  have hfin : fin = false := by
    cases fin with
    | false => rfl
    | true =>
        refine absurd (bounded_of_faces hne hN fun r hr => ?_) (hsat ▸ hub)
        obtain ⟨k, hk⟩ := List.getElem?_of_mem hr
        exact h3.1 rfl (k, r) ((mem_numbered _ _ _).2 hk)
  cases PP with
  | nil =>
      exfalso
      refine hub (bounded_of_empty3 fun x hx => ?_)
      obtain ⟨r, hr, y, hy⟩ := exists_face hne hN (hsat ▸ hx)
      obtain ⟨k, hk⟩ := List.getElem?_of_mem hr
      exact h2.1 rfl (k, r) ((mem_numbered _ _ _).2 hk) y hy
  | cons p PP =>
      refine ⟨p, PP, hfin ▸ h1, ?_⟩
      rw [h4, hsat]
      constructor
      · rintro ⟨q, hq, hw⟩
        have := (hm q.2).1 (List.mem_of_getElem? (hL q hq))
        exact ⟨q.2, this.1, this.2, hw⟩
      · rintro ⟨r, hr, h0, hw⟩
        obtain ⟨k, hk⟩ := List.getElem?_of_mem ((hm r).2 ⟨hr, h0⟩)
        exact ⟨(k, r), (mem_numbered _ _ _).2 hk, hw⟩

/-- The second loop on the part of a set in a window. -/
theorem pathsLoop_window {S : List (Ineq3 K)} (hc : Clean3 S) {lo hi : V3 K} (hex : Exact3 (S ++ windowRows3 lo hi))
    (hsep : Separated3 (S ++ windowRows3 lo hi)) :
    ∃ Vs rs, pathsLoop 0 (prepare3 S ++ windowRows3 lo hi) (numbered (prepare3 S ++ windowRows3 lo hi)) = .ok Vs ∧
      FacesOf (S ++ windowRows3 lo hi) rs Vs := by
  have hm := (prepare3_spec hc).2
  have hmem : ∀ r, r ∈ prepare3 S ++ windowRows3 lo hi ↔ r ∈ S ++ windowRows3 lo hi ∧ dot3 r.1 r.1 ≠ 0 := by
    intro r
    rw [List.mem_append, List.mem_append, hm]
    constructor
    · rintro (h | h)
      · exact ⟨Or.inl h.1, h.2⟩
      · exact ⟨Or.inr h, windowRows3_nz r h⟩
    · rintro ⟨h | h, h0⟩
      · exact Or.inl ⟨h, h0⟩
      · exact Or.inr h
  have hsat : Sat3 (prepare3 S ++ windowRows3 lo hi) = Sat3 (S ++ windowRows3 lo hi) := by
    funext x
    exact propext (by rw [sat3_window, sat3_window, sat3_prepare hc])
  have hN : ∀ r ∈ prepare3 S ++ windowRows3 lo hi, dot3 r.1 r.1 ≠ 0 := fun r hr => ((hmem r).1 hr).2
  obtain ⟨rs, Vs, g1, g2, g3, g4⟩ := pathsLoop_spec (S := prepare3 S ++ windowRows3 lo hi)
    (by rw [List.length_append]; simp [windowRows3])
    (fun r hr h0 s hs => hex r ((hmem r).1 hr).1 h0 s ((hmem s).1 hs).1) hN
    (fun r _ => by
      obtain ⟨R, hR⟩ := window3_bounded S lo hi
      exact ⟨R, fun x hx => hR x (hsat ▸ hx.1)⟩)
    (fun r hr h0 => by rw [hsat]; exact hsep r ((hmem r).1 hr).1 h0)
    _ (fun p hp => (mem_numbered _ _ _).1 hp)
  rw [numbered_snd] at g2 g3
  rw [hsat] at g3 g4
  refine ⟨Vs, rs, g1, fun r => ⟨fun hr => ?_, fun hr => ?_⟩, g4⟩
  · have hr' := g2.subset hr
    exact ⟨((hmem r).1 hr').1, ((hmem r).1 hr').2, (g3 r hr').1 hr⟩
  · exact (g3 r ((hmem r).2 ⟨hr.1, hr.2.1⟩)).2 hr.2.2

theorem prepare3_length {S : List (Ineq3 K)} (hc : Clean3 S)
    (h2 : ∃ r ∈ S, ∃ s ∈ S, r ≠ s ∧ dot3 r.1 r.1 ≠ 0 ∧ dot3 s.1 s.1 ≠ 0) : 2 ≤ (prepare3 S).length := by
  obtain ⟨r, hr, s, hs, hne, h0, h1⟩ := h2
  have hr' := ((prepare3_spec hc).2 r).2 ⟨hr, h0⟩
  have hs' := ((prepare3_spec hc).2 s).2 ⟨hs, h1⟩
  rcases h : prepare3 S with _ | ⟨a, _ | ⟨b, T⟩⟩
  · rw [h] at hr'; cases hr'
  · rw [h, List.mem_singleton] at hr' hs'
    exact absurd (hr'.trans hs'.symm) hne
  · simp

theorem exact3_left {S T : List (Ineq3 K)} (h : Exact3 (S ++ T)) : Exact3 S :=
  fun r hr h0 s hs => h r (List.mem_append_left _ hr) h0 s (List.mem_append_left _ hs)

/-- C84 (window given): of an unbounded set described by at least two different rows exactly the part in the window
is shown: one closed path through the vertices of each of its faces. -/
theorem C84_window_partial {S : List (Ineq3 K)} (hc : Clean3 S) {lo hi : V3 K}
    (hex : Exact3 (S ++ windowRows3 lo hi)) (hsep : Separated3 (S ++ windowRows3 lo hi))
    (h2 : ∃ r ∈ S, ∃ s ∈ S, r ≠ s ∧ dot3 r.1 r.1 ≠ 0 ∧ dot3 s.1 s.1 ≠ 0) (hub : ¬ BoundedSet3 (Sat3 S)) (st : List K) :
    ∃ Vs rs, lineqs3D 0 S (some (lo, hi)) st = (.ok Vs, st) ∧ FacesOf (S ++ windowRows3 lo hi) rs Vs ∧
      Outlined (fun x => Sat3 S x ∧ InWindow3 lo hi x) Vs := by
  obtain ⟨p, PP, h1, -⟩ := faceLoop_unbounded hc (exact3_left hex) (prepare3_length hc h2) hub
  obtain ⟨Vs, rs, g1, g2⟩ := pathsLoop_window hc hex hsep
  refine ⟨Vs, rs, ?_, g2, ?_⟩
  · unfold lineqs3D
    dsimp only
    rw [h1]
    dsimp only
    rw [g1]
  · rw [show (fun x => Sat3 S x ∧ InWindow3 lo hi x) = Sat3 (S ++ windowRows3 lo hi) from
      funext fun x => propext (sat3_window S lo hi x).symm]
    refine g2.outlined fun r hr h0 => ?_
    rcases List.mem_append.1 hr with hr | hr
    · exact hc.zero r hr h0
    · exact absurd h0 (windowRows3_nz r hr)

/-- C84, full statement: of every nonempty set something is shown. -/
def C84_statement (eps : K) (S : List (Ineq3 K)) : Prop :=
  (∃ x, Sat3 S x) → ∀ st, ∃ V Vs st', lineqs3D eps S none st = (.ok (V :: Vs), st')

theorem ppPoints_error {PP : List (PPEntry K)} (h : ∃ e ∈ PP, e.isPoint) : ppPoints PP = .error .indexError := by
  induction PP with
  | nil => obtain ⟨e, he, -⟩ := h; cases he
  | cons p PP ih =>
      cases p with
      | point x => rfl
      | points P =>
          obtain ⟨e, he, hp⟩ := h
          rcases List.mem_cons.1 he with rfl | he
          · exact hp.elim
          · unfold ppPoints
            rw [ih ⟨e, he, hp⟩]

theorem ppPoints_ok {PP : List (PPEntry K)} (h : ¬ ∃ e ∈ PP, e.isPoint) : ∃ P, ppPoints PP = .ok P := by
  induction PP with
  | nil => exact ⟨[], rfl⟩
  | cons p PP ih =>
      cases p with
      | point x => exact absurd ⟨_, List.mem_cons_self, trivial⟩ h
      | points P =>
          obtain ⟨Q, hQ⟩ := ih fun ⟨e, he, hp⟩ => h ⟨e, List.mem_cons_of_mem _ he, hp⟩
          refine ⟨P ++ Q, ?_⟩
          unfold ppPoints
          rw [hQ]

theorem spread_nonneg (l : List K) : 0 ≤ spread l := by
  cases l with
  | nil => exact le_refl _
  | cons x xs =>
      have hmax := (foldl_max_ge xs x).1
      have hmin : ∀ (xs : List K) (x : K), xs.foldl min x ≤ x := by
        intro xs
        induction xs with
        | nil => exact fun x => le_refl _
        | cons y ys ih => exact fun x => (ih (min x y)).trans (min_le_left _ _)
      have := hmin xs x
      simp only [spread]
      linarith

theorem centerRm3_pos (P : List (V3 K)) : 0 < (centerRm3 P).2 := by
  have a := spread_nonneg (P.map fun p => p.1)
  have b := spread_nonneg (P.map fun p => p.2.1)
  have c := spread_nonneg (P.map fun p => p.2.2)
  unfold centerRm3
  dsimp only
  split_ifs with h
  · dsimp only; linarith
  · have : (0 : K) < 1 / 10 ^ (14 : ℕ) := by positivity
    exact this.trans (not_le.1 h)

/-- The cube with centre `(c, c, c)` and half-width `w`. -/
def cubeRows (c w : K) : List (Ineq3 K) := windowRows3 (c - w, c - w, c - w) (c + w, c + w, c + w)

/-- C84 (no window), partial: for an unbounded set described by at least two different rows, none of whose boundary
planes lies in it entirely, exactly the part in some cube `[c - w, c + w]³` is shown, and `|c| + w` is added to the
history.  The cube need not meet the set (`C84_false`). -/
theorem C84_auto_partial {S : List (Ineq3 K)} (hc : Clean3 S) (hex : Exact3 S)
    (h2 : ∃ r ∈ S, ∃ s ∈ S, r ≠ s ∧ dot3 r.1 r.1 ≠ 0 ∧ dot3 s.1 s.1 ≠ 0) (hub : ¬ BoundedSet3 (Sat3 S))
    (hw : ∀ r ∈ S, dot3 r.1 r.1 ≠ 0 → ¬ WholePlane (Sat3 S) r) :
    ∃ c w : K, 0 < w ∧ (Exact3 (S ++ cubeRows c w) → Separated3 (S ++ cubeRows c w) → ∀ st,
      ∃ Vs rs, lineqs3D 0 S none st = (.ok Vs, st ++ [|c| + w]) ∧ FacesOf (S ++ cubeRows c w) rs Vs ∧
        Outlined (fun x => Sat3 S x ∧ InWindow3 (c - w, c - w, c - w) (c + w, c + w, c + w) x) Vs) := by
  obtain ⟨p, PP, h1, h3⟩ := faceLoop_unbounded hc hex (prepare3_length hc h2) hub
  obtain ⟨P, hP⟩ := ppPoints_ok fun h => by
    obtain ⟨r, hr, h0, hwr⟩ := h3.1 h
    exact hw r hr h0 hwr
  refine ⟨(centerRm3 P).1, (centerRm3 P).2, centerRm3_pos P, fun hex' hsep st => ?_⟩
  obtain ⟨Vs, rs, g1, g2⟩ := pathsLoop_window hc hex' hsep
  refine ⟨Vs, rs, ?_, g2, ?_⟩
  · unfold lineqs3D
    dsimp only
    rw [h1]
    dsimp only
    rw [hP]
    dsimp only
    rw [g1]
  · rw [← show Sat3 (S ++ windowRows3 _ _) = _ from funext fun x => propext (sat3_window S _ _ x)]
    refine g2.outlined fun r hr h0 => ?_
    rcases List.mem_append.1 hr with hr | hr
    · exact hc.zero r hr h0
    · exact absurd h0 (windowRows3_nz r hr)

/-- C84: without a window `lineqs3D` raises `IndexError` whenever a whole boundary plane belongs to the set (a
half-space, a slab). -/
theorem C84_plane_raises {S : List (Ineq3 K)} (hc : Clean3 S) (hex : Exact3 S) {r : Ineq3 K} (hr : r ∈ S)
    (h0 : dot3 r.1 r.1 ≠ 0) (hw : WholePlane (Sat3 S) r) (st : List K) :
    lineqs3D 0 S none st = (.error .indexError, st) := by
  have hub : ¬ BoundedSet3 (Sat3 S) := by
    rintro ⟨R, hR⟩
    exact not_bounded_all (K := K) ((bounded_point (F := fun x => dot3 r.1 x = r.2) h0 (fun x hx => hx)
      (fun p => ⟨fun _ => point_on h0 p, fun _ => trivial⟩)).2 ⟨R, fun x hx => hR x (hw x hx)⟩)
  by_cases hlen : 2 ≤ (prepare3 S).length
  · obtain ⟨p, PP, h1, h3⟩ := faceLoop_unbounded hc hex hlen hub
    unfold lineqs3D
    dsimp only
    rw [h1]
    dsimp only
    rw [ppPoints_error (h3.2 ⟨r, hr, h0, hw⟩)]
  · have hr' := ((prepare3_spec hc).2 r).2 ⟨hr, h0⟩
    unfold lineqs3D
    dsimp only
    rcases h : prepare3 S with _ | ⟨a, _ | ⟨b, T⟩⟩
    · rw [h] at hr'; cases hr'
    · rfl
    · rw [h] at hlen; simp at hlen

/-- C84: false.  For the slab `0 ≤ x ≤ 1` and for the half-space `x ≥ 0` the call fails, for the set `x ≥ 100`,
`y ≥ -100` and for the beam `100 ≤ x, y ≤ 101` nothing is returned: all three coordinates of the centre of the window
are the mean of the sums `x + y + z`, so that the window misses the set. -/
theorem C84_false :
    (¬ C84_statement (0 : ℚ) [((1, 0, 0), 0), ((-1, 0, 0), -1)] ∧ ¬ C84_statement (0 : ℚ) [((1, 0, 0), 0)]) ∧
    (lineqs3D (0 : ℚ) [((1, 0, 0), 100), ((0, 1, 0), -100)] none []).1.toOption = some [] ∧
    (lineqs3D (1 / 10 ^ 301 : ℚ) [((1, 0, 0), 100), ((0, 1, 0), -100)] none []).1.toOption = some [] ∧
    (lineqs3D (1 / 10 ^ 301 : ℚ) [((1, 0, 0), 100), ((0, 1, 0), 100), ((-1, 0, 0), -101), ((0, -1, 0), -101)]
      none []).1.toOption = some [] ∧
    ¬ C84_statement (1 / 10 ^ 301 : ℚ) [((1, 0, 0), 100), ((0, 1, 0), -100)] := by
  have key : ∀ (eps : ℚ) (S : List (Ineq3 ℚ)) (x : V3 ℚ), Sat3 S x →
      ((lineqs3D eps S none []).1.toOption = none ∨ (lineqs3D eps S none []).1.toOption = some []) →
      ¬ C84_statement eps S := by
    intro eps S x hx h hs
    obtain ⟨V, Vs, st', e⟩ := hs ⟨x, hx⟩ []
    rw [e] at h
    rcases h with h | h <;> cases h
  refine ⟨⟨key 0 _ (0, 0, 0) (by unfold Sat3; decide +kernel) (Or.inl (by decide +kernel)),
    key 0 _ (0, 0, 0) (by unfold Sat3; decide +kernel) (Or.inl (by decide +kernel))⟩, by decide +kernel,
    by decide +kernel, by decide +kernel, key _ _ (100, 0, 0) (by unfold Sat3; decide +kernel) (Or.inr (by decide +kernel))⟩

/-! ## Examples -/

/-- Rows parallel to the coordinate planes that describe a box whose sides are zero or longer than `1e-8`. -/
theorem separated3_box {S : List (Ineq3 ℚ)} (l h : V3 ℚ)
    (hS : ∀ x, Sat3 S x ↔ (l.1 ≤ x.1 ∧ x.1 ≤ h.1) ∧ (l.2.1 ≤ x.2.1 ∧ x.2.1 ≤ h.2.1) ∧ l.2.2 ≤ x.2.2 ∧ x.2.2 ≤ h.2.2)
    (hr : ∀ r ∈ S, r.1 ∈ [((1, 0, 0) : V3 ℚ), (0, 1, 0), (0, 0, 1), (-1, 0, 0), (0, -1, 0), (0, 0, -1)])
    (h1 : l.1 = h.1 ∨ 1 / 10 ^ 8 < h.1 - l.1) (h2 : l.2.1 = h.2.1 ∨ 1 / 10 ^ 8 < h.2.1 - l.2.1)
    (h3 : l.2.2 = h.2.2 ∨ 1 / 10 ^ 8 < h.2.2 - l.2.2) : Separated3 S := by
  intro r hrS _
  have key : ∀ (P : ℚ × ℚ → Prop) (c : Prop) (l h : ℚ × ℚ),
      (∀ x, P x ↔ c ∧ (l.1 ≤ x.1 ∧ x.1 ≤ h.1) ∧ l.2 ≤ x.2 ∧ x.2 ≤ h.2) →
      (l.1 = h.1 ∨ 1 / 10 ^ 8 < h.1 - l.1) → (l.2 = h.2 ∨ 1 / 10 ^ 8 < h.2 - l.2) → Separated P := by
    intro P c l h hP g1 g2
    by_cases hc : c
    · exact separated_box l h (fun x => by rw [hP]; exact and_iff_right hc) g1 g2
    · exact fun u v hu => absurd ((hP u).1 hu.1).1 hc
  have flip : ∀ {a b : ℚ}, (a = b ∨ 1 / 10 ^ 8 < b - a) → (-b = -a ∨ 1 / 10 ^ 8 < -a - -b) := by
    rintro a b (h | h)
    · exact Or.inl (by rw [h])
    · exact Or.inr (by linarith)
  have hv := hr r hrS
  obtain ⟨n, t⟩ := r
  simp only [List.mem_cons, List.not_mem_nil, or_false] at hv
  rcases hv with rfl | rfl | rfl | rfl | rfl | rfl
  · refine key _ (l.1 ≤ t ∧ t ≤ h.1) (l.2.2, -h.2.1) (h.2.2, -l.2.1) (fun p => ?_) h3 (flip h2)
    simp only [Face, hS]
    norm_num [cvPoint, cvOrigin, cvFirst, cvSecond, cross3, dot3]
    grind
  · refine key _ (l.2.1 ≤ t ∧ t ≤ h.2.1) (-h.2.2, -h.1) (-l.2.2, -l.1) (fun p => ?_) (flip h3) (flip h1)
    simp only [Face, hS]
    norm_num [cvPoint, cvOrigin, cvFirst, cvSecond, cross3, dot3]
    grind
  · refine key _ (l.2.2 ≤ t ∧ t ≤ h.2.2) (l.2.1, -h.1) (h.2.1, -l.1) (fun p => ?_) h2 (flip h1)
    simp only [Face, hS]
    norm_num [cvPoint, cvOrigin, cvFirst, cvSecond, cross3, dot3]
    grind
  · refine key _ (l.1 ≤ -t ∧ -t ≤ h.1) (-h.2.2, -h.2.1) (-l.2.2, -l.2.1) (fun p => ?_) (flip h3) (flip h2)
    simp only [Face, hS]
    norm_num [cvPoint, cvOrigin, cvFirst, cvSecond, cross3, dot3]
    grind
  · refine key _ (l.2.1 ≤ -t ∧ -t ≤ h.2.1) (l.2.2, -h.1) (h.2.2, -l.1) (fun p => ?_) h3 (flip h1)
    simp only [Face, hS]
    norm_num [cvPoint, cvOrigin, cvFirst, cvSecond, cross3, dot3]
    grind
  · refine key _ (l.2.2 ≤ -t ∧ -t ≤ h.2.2) (-h.2.1, -h.1) (-l.2.1, -l.1) (fun p => ?_) (flip h2) (flip h1)
    simp only [Face, hS]
    norm_num [cvPoint, cvOrigin, cvFirst, cvSecond, cross3, dot3]
    grind

/-- The set `x, y ≥ 0` (for all `z`). -/
def wedgeRows : List (Ineq3 ℚ) := [((1, 0, 0), 0), ((0, 1, 0), 0)]

theorem sat_wedge (x : V3 ℚ) : Sat3 wedgeRows x ↔ 0 ≤ x.1 ∧ 0 ≤ x.2.1 := by
  unfold Sat3 wedgeRows
  simp [dot3]

theorem wedge_unbounded : ¬ BoundedSet3 (Sat3 wedgeRows) := by
  rintro ⟨R, hR⟩
  have := (hR (|R| + 1, 0, 0) ((sat_wedge _).2 ⟨by positivity, le_refl _⟩)).1
  rw [abs_of_pos (by positivity)] at this
  have := le_abs_self R
  simp only at *
  linarith

/-- The hypotheses of `C84_window_partial` hold for `x, y ≥ 0` and the window `[-1, 2]³`. -/
example : ∃ Vs rs, lineqs3D 0 wedgeRows (some ((-1, -1, -1), (2, 2, 2))) [7] = (.ok Vs, [7]) ∧
    FacesOf (wedgeRows ++ windowRows3 (-1, -1, -1) (2, 2, 2)) rs Vs ∧
    Outlined (fun x => Sat3 wedgeRows x ∧ InWindow3 (-1, -1, -1) (2, 2, 2) x) Vs := by
  refine C84_window_partial ⟨by decide +kernel, by decide +kernel, by decide +kernel⟩ (by unfold Exact3; decide +kernel)
    (separated3_box (0, 0, -1) (2, 2, 2) (fun x => ?_) (by decide +kernel) (by norm_num) (by norm_num) (by norm_num))
    (by decide +kernel) wedge_unbounded _
  rw [sat3_window, sat_wedge]
  unfold InWindow3
  constructor
  · rintro ⟨⟨a, b⟩, ⟨c, d⟩, ⟨e, f⟩, g⟩
    exact ⟨⟨a, d⟩, ⟨b, f⟩, g⟩
  · rintro ⟨⟨a, d⟩, ⟨b, f⟩, g⟩
    refine ⟨⟨a, b⟩, ⟨?_, d⟩, ⟨?_, f⟩, g⟩
    · exact le_trans (by norm_num) a
    · exact le_trans (by norm_num) b

/-- The hypotheses of `C84_auto_partial` hold for `x, y ≥ 0`. -/
example : Clean3 wedgeRows ∧ Exact3 wedgeRows ∧
    (∃ r ∈ wedgeRows, ∃ s ∈ wedgeRows, r ≠ s ∧ dot3 r.1 r.1 ≠ 0 ∧ dot3 s.1 s.1 ≠ 0) ∧ ¬ BoundedSet3 (Sat3 wedgeRows) ∧
    ∀ r ∈ wedgeRows, dot3 r.1 r.1 ≠ 0 → ¬ WholePlane (Sat3 wedgeRows) r := by
  refine ⟨⟨by decide +kernel, by decide +kernel, by decide +kernel⟩, by unfold Exact3; decide +kernel, by decide +kernel,
    wedge_unbounded, fun r hr _ h => ?_⟩
  simp only [wedgeRows, List.mem_cons, List.not_mem_nil, or_false] at hr
  rcases hr with rfl | rfl
  · have := ((sat_wedge _).1 (h (0, -1, 0) (by norm_num [dot3]))).2
    norm_num at this
  · have := ((sat_wedge _).1 (h (-1, 0, 0) (by norm_num [dot3]))).1
    norm_num at this

/-- The hypotheses of `C84_plane_raises` hold for `0 ≤ x ≤ 1`. -/
example (st : List ℚ) : lineqs3D 0 [((1, 0, 0), 0), ((-1, 0, 0), -1)] none st = (.error .indexError, st) := by
  refine C84_plane_raises (r := ((1, 0, 0), 0)) ⟨by decide +kernel, by decide +kernel, by decide +kernel⟩
    (by unfold Exact3; decide +kernel) (by decide +kernel) (by decide +kernel) (fun x hx => ?_) st
  simp [Sat3, dot3] at hx ⊢
  rw [hx]
  norm_num

end IntvalPy
