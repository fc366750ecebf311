import Verif.PropsSpaceWindow

/-!
# The polyhedra returned by IntLinIncR3 (C85, C86)
-/

set_option autoImplicit false
set_option linter.unusedSectionVars false

namespace IntvalPy

open Spec

variable {K : Type*} [Field K] [LinearOrder K] [FloorRing K] [IsStrictOrderedRing K]

/-- The part of the solution set in one orthant of space. -/
def Part3 {n : Nat} (A : Fin n → Fin 3 → Iv K) (b : Fin n → Iv K) (cons : Consistency) (ort : Fin 3 → Bool)
    (p : V3 K) : Prop := InOrthant ort ![p.1, p.2.1, p.2.2] ∧ SolSet A b cons ![p.1, p.2.1, p.2.2]

/-- The rows as rows of space. -/
def spaceRows (S : List (Ineq K 3)) : List (Ineq3 K) := S.map fun r => ((r.1 0, r.1 1, r.1 2), r.2)

theorem toIneq3_space (r : Ineq K 3) : toIneq3 (((r.1 0, r.1 1, r.1 2), r.2) : Ineq3 K) = r := by
  refine Prod.ext (funext fun j => ?_) rfl
  fin_cases j <;> rfl

theorem sat3_spaceRows (S : List (Ineq K 3)) (x : V3 K) :
    Sat3 (spaceRows S) x ↔ Satisfies S ![x.1, x.2.1, x.2.2] := by
  unfold Sat3 spaceRows Satisfies
  simp only [List.forall_mem_map, dot3, Fin.sum_univ_three]
  rfl

/-! ## The shift of the right-hand sides -/

theorem rint_close {x : K} {z : ℤ} (h : |x - z| < 1 / 2) : rint x = z := by
  have h1 := rint_near x
  have h2 : |((rint x : ℤ) : K) - z| < 1 := by
    have := abs_sub_le ((rint x : ℤ) : K) x z
    linarith
  have h3 : |rint x - z| < 1 := by
    have : ((|rint x - z| : ℤ) : K) < 1 := by push_cast; exact h2
    exact_mod_cast this
  have := abs_lt.1 h3
  omega

/-- Rounding to twelve decimals undoes a small change. -/
theorem around12_close {x y : K} (hy : OnGrid y) (h : |x - y| < 1 / 2 / 10 ^ 12) : around12 x = y := by
  obtain ⟨z, rfl⟩ := hy
  unfold around12
  rw [rint_close (z := z)]
  have hp : (0 : K) < 10 ^ 12 := by positivity
  have e : x * 10 ^ 12 - z = (x - z / 10 ^ 12) * 10 ^ 12 := by field_simp
  rw [e, abs_mul, abs_of_pos hp]
  calc |x - z / 10 ^ 12| * 10 ^ 12 < 1 / 2 / 10 ^ 12 * 10 ^ 12 := mul_lt_mul_of_pos_right h hp
    _ = 1 / 2 := by field_simp

theorem around12_shift {t : K} (ht : OnGrid t) : around12 (-shift3 t) = around12 (-t) := by
  rw [around12_of_onGrid (onGrid_neg ht)]
  refine around12_close (onGrid_neg ht) ?_
  obtain ⟨h1, h2⟩ := shift3_near t
  have e : (1 : K) / 10 ^ 15 < 1 / 2 / 10 ^ 12 := by norm_num
  rw [abs_lt]
  constructor <;> linarith

/-- Only the rounded rows matter. -/
theorem lineqs3D_congr {S T : List (Ineq3 K)} (h : (S.map toIneq3).map aroundRow = (T.map toIneq3).map aroundRow)
    (eps : K) (bounds : Option (V3 K × V3 K)) (st : List K) : lineqs3D eps S bounds st = lineqs3D eps T bounds st := by
  have : prepare3 S = prepare3 T := by
    have hm : ∀ S : List (Ineq3 K),
        (S.map fun r : Ineq3 K => ((![r.1.1, r.1.2.1, r.1.2.2], r.2) : Ineq K 3)) = S.map toIneq3 := fun _ => rfl
    unfold prepare3 clearZeroRows
    dsimp only
    rw [hm, hm, h]
  unfold lineqs3D
  rw [this]

theorem shifted_rows {n : Nat} {A : Fin n → Fin 3 → Iv K} {b : Fin n → Iv K}
    (hb : ∀ i, OnGrid (b i).a ∧ OnGrid (b i).b) {cons : Consistency} (hc : cons ≠ .other) (ort : Fin 3 → Bool)
    (eps : K) (bounds : Option (V3 K × V3 K)) (st : List K) :
    ∃ rows rows', orthantRows shift3 A b ort cons = .ok rows ∧ orthantRows id A b ort cons = .ok rows' ∧
      lineqs3D eps (spaceRows rows) bounds st = lineqs3D eps (spaceRows rows') bounds st := by
  have hs : ∀ S : List (Ineq K 3), (spaceRows S).map toIneq3 = S := by
    intro S
    unfold spaceRows
    rw [List.map_map]
    exact (List.map_congr_left fun r _ => toIneq3_space r).trans (List.map_id S)
  have key : ∀ (v : Fin 3 → K) (t : K), OnGrid t → aroundRow ((v, -shift3 t) : Ineq K 3) = aroundRow (v, -t) :=
    fun v t ht => Prod.ext rfl (around12_shift ht)
  cases cons with
  | other => exact absurd rfl hc
  | uni =>
      refine ⟨_, _, rfl, rfl, lineqs3D_congr ?_ _ _ _⟩
      rw [hs, hs]
      simp only [List.map_append, List.map_ofFn, Function.comp_def, id]
      congr 3
      · funext i
        exact key _ _ (hb i).2
      · funext i
        exact key _ _ (onGrid_neg (hb i).1)
  | tol =>
      refine ⟨_, _, rfl, rfl, lineqs3D_congr ?_ _ _ _⟩
      rw [hs, hs]
      simp only [List.map_append, List.map_ofFn, Function.comp_def, id]
      congr 3
      · funext i
        exact key _ _ (onGrid_neg (hb i).1)
      · funext i
        exact key _ _ (hb i).2

/-! ## The orthants -/

/-- Systems the code handles exactly: ordinary intervals, right-hand sides with at most twelve decimals, and in every
orthant inequalities (those of `C48_plane`) that the preprocessing keeps and that can be written with twelve decimals in
the variables of every face. -/
structure Nice3 {n : Nat} (A : Fin n → Fin 3 → Iv K) (b : Fin n → Iv K) (cons : Consistency) : Prop where
  kind : cons ≠ .other
  ordA : ∀ i k, (A i k).a ≤ (A i k).b
  ordb : ∀ i, (b i).a ≤ (b i).b
  grid : ∀ i, OnGrid (b i).a ∧ OnGrid (b i).b
  rows : ∀ ort ∈ orthants3, ∀ rows, orthantRows id A b ort cons = .ok rows →
    Clean3 (spaceRows rows) ∧ Exact3 (spaceRows rows)

/-- In every orthant the faces have vertices more than `1e-8` apart in the variables of the face. -/
def FarApart {n : Nat} (A : Fin n → Fin 3 → Iv K) (b : Fin n → Iv K) (cons : Consistency) : Prop :=
  ∀ ort ∈ orthants3, ∀ rows, orthantRows id A b ort cons = .ok rows → Separated3 (spaceRows rows)

/-- One orthant, when the part of the solution set is bounded. -/
theorem orthant3_bounded {n : Nat} {A : Fin n → Fin 3 → Iv K} {b : Fin n → Iv K} {cons : Consistency}
    (h : Nice3 A b cons) (hsep : FarApart A b cons) {ort : Fin 3 → Bool} (ho : ort ∈ orthants3)
    (hb : BoundedSet3 (Part3 A b cons ort)) :
    ∃ rows V, orthantRows shift3 A b ort cons = .ok rows ∧
      (∀ bounds st, lineqs3D 0 (spaceRows rows) bounds st = (.ok V, st)) ∧ Outlined (Part3 A b cons ort) V := by
  obtain ⟨rows, rows', h1, h2, -⟩ := shifted_rows (A := A) h.grid h.kind ort 0 none []
  obtain ⟨hc, hex⟩ := h.rows ort ho rows' h2
  have hsat : Sat3 (spaceRows rows') = Part3 A b cons ort := by
    funext x
    rw [sat3_spaceRows]
    exact propext (C48_plane A b h.ordA h.ordb ort cons rows' h2 _)
  obtain ⟨V, hV, hO, -⟩ := C83_vertices_partial hc hex (hsep ort ho rows' h2) (hsat ▸ hb)
  refine ⟨rows, V, h1, fun bounds st => ?_, hsat ▸ hO⟩
  obtain ⟨rows1, rows2, e1, e2, e3⟩ := shifted_rows (A := A) h.grid h.kind ort 0 bounds st
  rw [h1] at e1
  rw [h2] at e2
  injection e1 with e1
  injection e2 with e2
  subst e1 e2
  rw [e3, hV]

theorem algo3_bounded {n : Nat} {A : Fin n → Fin 3 → Iv K} {b : Fin n → Iv K} {cons : Consistency}
    (h : Nice3 A b cons) (hsep : FarApart A b cons) (hb : ∀ ort, BoundedSet3 (Part3 A b cons ort))
    (os : List (Fin 3 → Bool)) (hos : ∀ o ∈ os, o ∈ orthants3) :
    ∃ Vs, (∀ bounds st, algo3 0 A b cons bounds os st = (.ok Vs, st)) ∧
      List.Forall₂ (fun ort V => Outlined (Part3 A b cons ort) V) os Vs := by
  induction os with
  | nil => exact ⟨[], fun _ _ => rfl, .nil⟩
  | cons o os ih =>
      obtain ⟨Vs, h1, h2⟩ := ih fun o' ho' => hos o' (List.mem_cons_of_mem _ ho')
      obtain ⟨rows, V, g1, g2, g3⟩ := orthant3_bounded h hsep (hos o List.mem_cons_self) (hb o)
      refine ⟨V :: Vs, fun bounds st => ?_, .cons g3 h2⟩
      unfold algo3
      rw [g1]
      dsimp only
      rw [show (rows.map fun r => (((r.1 0, r.1 1, r.1 2), r.2) : Ineq3 K)) = spaceRows rows from rfl, g2]
      dsimp only
      rw [h1]

/-- C86, full statement: if the solution set is bounded in every orthant, `IntLinIncR3` outlines for each of the eight
orthants the part of the (united or tolerable) solution set in it. -/
def C86_statement (eps : K) {n : Nat} (A : Fin n → Fin 3 → Iv K) (b : Fin n → Iv K) (cons : Consistency) : Prop :=
  (∀ ort, BoundedSet3 (Part3 A b cons ort)) → ∃ Vs, intLinIncR3 eps A b cons none [] = (.ok Vs, []) ∧
    List.Forall₂ (fun ort V => Outlined (Part3 A b cons ort) V) orthants3 Vs

/-- C86, partial: true under `Nice3` and `FarApart`, in exact point arithmetic; the change of the right-hand sides by
`1e-15` is then undone by the rounding.  Missing: other systems (`C86_false`) and unbounded solution sets. -/
theorem C86_bounded_partial {n : Nat} (A : Fin n → Fin 3 → Iv K) (b : Fin n → Iv K) (cons : Consistency)
    (h : Nice3 A b cons) (hsep : FarApart A b cons) : C86_statement 0 A b cons := by
  intro hb
  obtain ⟨Vs, h1, h2⟩ := algo3_bounded h hsep hb orthants3 fun _ ho => ho
  refine ⟨Vs, ?_, h2⟩
  unfold intLinIncR3
  rw [h1]
  rfl

/-- C85, full statement: what `IntLinIncR3` returns does not depend on earlier calls of the drawing functions. -/
def C85_statement (eps : K) {n : Nat} (A : Fin n → Fin 3 → Iv K) (b : Fin n → Iv K) (cons : Consistency) : Prop :=
  ∀ st, (intLinIncR3 eps A b cons none st).1 = (intLinIncR3 eps A b cons none []).1

/-- C85, partial: true, under the same conditions, for solution sets that are bounded in every orthant; the history is
cleared.  Missing: unbounded solution sets (`C85_false`). -/
theorem C85_bounded_partial {n : Nat} (A : Fin n → Fin 3 → Iv K) (b : Fin n → Iv K) (cons : Consistency)
    (h : Nice3 A b cons) (hsep : FarApart A b cons) (hb : ∀ ort, BoundedSet3 (Part3 A b cons ort)) :
    ∃ Vs, ∀ st, intLinIncR3 0 A b cons none st = (.ok Vs, []) := by
  obtain ⟨Vs, h1, h2⟩ := algo3_bounded h hsep hb orthants3 fun _ ho => ho
  refine ⟨Vs, fun st => ?_⟩
  unfold intLinIncR3
  rw [h1]
  dsimp only
  split_ifs
  · rw [h1]
  · rfl

/-- C85: every call that returns clears the history. -/
theorem C85_cleared (eps : K) {n : Nat} (A : Fin n → Fin 3 → Iv K) (b : Fin n → Iv K) (cons : Consistency)
    (bounds : Option (V3 K × V3 K)) (st st' : List K) (Vs : List (List (List (V3 K))))
    (h : intLinIncR3 eps A b cons bounds st = (.ok Vs, st')) : st' = [] := by
  unfold intLinIncR3 at h
  rcases ha : algo3 eps A b cons bounds orthants3 st with ⟨e | Vs1, st1⟩ <;> rw [ha] at h
  · cases h
  dsimp only at h
  split_ifs at h
  · rcases hb : algo3 eps A b cons (some ((-listMax st1, -listMax st1, -listMax st1),
      (listMax st1, listMax st1, listMax st1))) orthants3 st1 with ⟨e | Vs2, st2⟩ <;> rw [hb] at h
    · cases h
    · injection h with _ h2
      exact h2.symm
  · injection h with _ h2
    exact h2.symm

/-! ## Examples and counterexamples -/

/-- The equation `x = [1, 2]` with the unknowns `x`, `y`, `z`. -/
def wallA (_ : Fin 1) : Fin 3 → Iv ℚ := ![⟨.classical, 1, 1⟩, ⟨.classical, 0, 0⟩, ⟨.classical, 0, 0⟩]

/-- The identity matrix. -/
def idA3 (i k : Fin 3) : Iv ℚ := if k = i then ⟨.classical, 1, 1⟩ else ⟨.classical, 0, 0⟩

/-- The right-hand side `[1, 2]` in every component. -/
def cubeb (_ : Fin 3) : Iv ℚ := ⟨.classical, 1, 2⟩

theorem part_cube (ort : Fin 3 → Bool) (p : V3 ℚ) : Part3 idA3 cubeb .uni ort p ↔
    InOrthant ort ![p.1, p.2.1, p.2.2] ∧ (1 ≤ p.1 ∧ p.1 ≤ 2) ∧ (1 ≤ p.2.1 ∧ p.2.1 ≤ 2) ∧ 1 ≤ p.2.2 ∧ p.2.2 ≤ 2 := by
  refine and_congr_right fun _ => ?_
  constructor
  · rintro ⟨A', hA', b', hb', he⟩
    have row : ∀ i : Fin 3, (![p.1, p.2.1, p.2.2] : Fin 3 → ℚ) i = b' i := by
      intro i
      rw [← he i]
      have ha : ∀ k, A' i k = if k = i then 1 else 0 := by
        intro k
        have := Iv.mem_def.1 (hA' i k)
        unfold idA3 at this
        split_ifs with h
        · rw [if_pos h] at this; exact le_antisymm this.2 this.1
        · rw [if_neg h] at this; exact le_antisymm this.2 this.1
      unfold apply
      simp [ha]
    have r0 : p.1 = b' 0 := row 0
    have r1 : p.2.1 = b' 1 := row 1
    have r2 : p.2.2 = b' 2 := row 2
    rw [r0, r1, r2]
    exact ⟨Iv.mem_def.1 (hb' 0), Iv.mem_def.1 (hb' 1), Iv.mem_def.1 (hb' 2)⟩
  · rintro ⟨h0, h1, h2⟩
    refine ⟨fun i k => if k = i then 1 else 0, fun i k => ?_, ![p.1, p.2.1, p.2.2], fun i => ?_, fun i => ?_⟩
    · rw [Iv.mem_def]
      unfold idA3
      split_ifs with h <;> simp [h]
    · rw [Iv.mem_def]
      fin_cases i
      · exact h0
      · exact h1
      · exact h2
    · unfold apply
      simp

/-- All orthants of the cube at once. -/
def cubeChecks (ort : Fin 3 → Bool) : Bool :=
  match orthantRows id idA3 cubeb ort .uni with
  | .error _ => false
  | .ok rows =>
      decide (∀ r ∈ spaceRows rows, ExactRow (toIneq3 r)) &&
      decide (∀ r ∈ spaceRows rows, dot3 r.1 r.1 = 0 → r.2 ≤ 0) &&
      decide (∀ r ∈ spaceRows rows, ∀ s ∈ spaceRows rows, r.1.1 - r.2 = s.1.1 - s.2 → r.1.2.1 - r.2 = s.1.2.1 - s.2 →
        r.1.2.2 - r.2 = s.1.2.2 - s.2 → r = s) &&
      decide (∀ r ∈ spaceRows rows, dot3 r.1 r.1 ≠ 0 → ∀ s ∈ spaceRows rows, ExactRow (toIneq (cvRow r s))) &&
      decide (∀ r ∈ spaceRows rows,
        r.1 ∈ [((1, 0, 0) : V3 ℚ), (0, 1, 0), (0, 0, 1), (-1, 0, 0), (0, -1, 0), (0, 0, -1)])

theorem cube_checked : ∀ ort ∈ orthants3, cubeChecks ort = true := by decide +kernel

theorem nice_cube : Nice3 idA3 cubeb .uni := by
  refine ⟨by decide, by decide +kernel, by decide +kernel, by decide +kernel, fun ort ho rows hr => ?_⟩
  have h := cube_checked ort ho
  unfold cubeChecks at h
  rw [hr] at h
  simp only [Bool.and_eq_true, decide_eq_true_eq] at h
  exact ⟨⟨h.1.1.1.1, h.1.1.1.2, h.1.1.2⟩, h.1.2⟩

theorem far_cube : FarApart idA3 cubeb .uni := by
  intro ort ho rows hr
  have h := cube_checked ort ho
  unfold cubeChecks at h
  rw [hr] at h
  simp only [Bool.and_eq_true, decide_eq_true_eq] at h
  have hsat : ∀ x, Sat3 (spaceRows rows) x ↔ Part3 idA3 cubeb .uni ort x := fun x => by
    rw [sat3_spaceRows]
    exact C48_plane idA3 cubeb nice_cube.ordA nice_cube.ordb ort .uni rows hr _
  by_cases hall : ort = fun _ => true
  · refine separated3_box (1, 1, 1) (2, 2, 2) (fun x => ?_) h.2 (by norm_num) (by norm_num) (by norm_num)
    rw [hsat, part_cube]
    refine and_iff_right_of_imp fun hx k => ?_
    rw [hall, if_pos rfl]
    obtain ⟨⟨a, -⟩, ⟨b, -⟩, c, -⟩ := hx
    fin_cases k
    · exact zero_le_one.trans a
    · exact zero_le_one.trans b
    · exact zero_le_one.trans c
  · intro r _ _ u v hu
    exfalso
    apply hall
    funext k
    obtain ⟨hin, ⟨a, -⟩, ⟨b, -⟩, c, -⟩ := (part_cube _ _).1 ((hsat _).1 hu.1.1)
    by_contra hk
    have := hin k
    rw [if_neg hk] at this
    have h1 : (1 : ℚ) ≤ 0 := by
      fin_cases k
      · exact a.trans this
      · exact b.trans this
      · exact c.trans this
    norm_num at h1

/-- The hypotheses of `C86_bounded_partial` and `C85_bounded_partial` hold for the cube `[1, 2]³`. -/
example : Nice3 idA3 cubeb .uni ∧ FarApart idA3 cubeb .uni ∧ ∀ ort, BoundedSet3 (Part3 idA3 cubeb .uni ort) := by
  refine ⟨nice_cube, far_cube, fun ort => ⟨2, fun x hx => ?_⟩⟩
  obtain ⟨-, ⟨a, b⟩, ⟨c, d⟩, e, f⟩ := (part_cube ort x).1 hx
  refine ⟨abs_le.2 ⟨?_, ?_⟩, abs_le.2 ⟨?_, ?_⟩, abs_le.2 ⟨?_, ?_⟩⟩ <;> linarith

/-- The system `2x + y + z = [1, 4]`, `y, z = [-5, 5]`. -/
def planeA : Fin 3 → Fin 3 → Iv ℚ :=
  ![![⟨.classical, 2, 2⟩, ⟨.classical, 1, 1⟩, ⟨.classical, 1, 1⟩], idA3 1, idA3 2]

/-- The right-hand side of `planeA`. -/
def planeb : Fin 3 → Iv ℚ := ![⟨.classical, 1, 4⟩, ⟨.classical, -5, 5⟩, ⟨.classical, -5, 5⟩]

/-- The result for the first orthant contains a point with the property `q`. -/
def firstHas (r : Hist ℚ (List (List (List (V3 ℚ))))) (q : V3 ℚ → Bool) : Bool :=
  match r.1 with
  | .ok (V :: _) => V.any fun P => P.any q
  | _ => false

theorem firstHas_congr {r r' : Hist ℚ (List (List (List (V3 ℚ))))} (h : r.1 = r'.1) (q : V3 ℚ → Bool) :
    firstHas r q = firstHas r' q := by
  unfold firstHas
  rw [h]

theorem firstHas_ok {r : Hist ℚ (List (List (List (V3 ℚ))))} {q : V3 ℚ → Bool} {Vs : List (List (List (V3 ℚ)))}
    {st : List ℚ} (h : firstHas r q = true) (e : r = (.ok Vs, st)) : ∃ V Vs', Vs = V :: Vs' ∧ ∃ P ∈ V, ∃ v ∈ P, q v = true := by
  subst e
  unfold firstHas at h
  cases Vs with
  | nil => cases h
  | cons V Vs' =>
      obtain ⟨P, hP, h⟩ := List.any_eq_true.1 h
      obtain ⟨v, hv, h⟩ := List.any_eq_true.1 h
      exact ⟨V, Vs', rfl, P, hP, v, hv, h⟩

theorem wall_after :
    firstHas (intLinIncR3 (1 / 10 ^ 301 : ℚ) wallA ![⟨.classical, 1, 2⟩] .uni none [500]) (fun v => decide (400 < v.2.1)) = true := by
  decide +kernel

theorem wall_fresh :
    firstHas (intLinIncR3 (1 / 10 ^ 301 : ℚ) wallA ![⟨.classical, 1, 2⟩] .uni none []) (fun v => decide (400 < v.2.1)) = false := by
  decide +kernel

theorem plane_outside :
    firstHas (intLinIncR3 (1 / 10 ^ 301 : ℚ) planeA planeb .uni none []) (fun v => decide (v.1 < -4)) = true := by
  decide +kernel

/-- C85: false.  A preceding call `lineqs3D` on the set `x, y, z ≥ 100` leaves a number behind, and `IntLinIncR3`
draws the unbounded set `x = [1, 2]` in a larger window. -/
theorem C85_false :
    (lineqs3D (0 : ℚ) [((1, 0, 0), 100), ((0, 1, 0), 100), ((0, 0, 1), 100)] none []).2 = [500] ∧
    ¬ C85_statement (1 / 10 ^ 301 : ℚ) wallA ![⟨.classical, 1, 2⟩] .uni := by
  refine ⟨by decide +kernel, fun h => ?_⟩
  have h1 := (wall_after.symm.trans (firstHas_congr (h [500]) _)).trans wall_fresh
  cases h1

/-- C86: false.  For `2x + y + z = [1, 4]`, `y, z = [-5, 5]` the inequality `x ≥ 0` of the first orthant is dropped,
because `2x + y + z ≥ 1` has the same differences `a - b`; the polyhedron returned for the orthant `x, y, z ≥ 0` has
vertices with `x < -4`. -/
theorem C86_false : ¬ C86_statement (1 / 10 ^ 301 : ℚ) planeA planeb .uni := by
  have hb : ∀ ort, BoundedSet3 (Part3 planeA planeb .uni ort) := by
    intro ort
    refine ⟨7, fun x hx => ?_⟩
    obtain ⟨-, A', hA', b', hb', he⟩ := hx
    have ha : ∀ i k, A' i k = (planeA i k).a := by
      intro i k
      have := Iv.mem_def.1 (hA' i k)
      have e : (planeA i k).b = (planeA i k).a := by fin_cases i <;> fin_cases k <;> rfl
      rw [e] at this
      exact le_antisymm this.2 this.1
    have e0 := he 0
    have e1 := he 1
    have e2 := he 2
    have b0 := Iv.mem_def.1 (hb' 0)
    have b1 := Iv.mem_def.1 (hb' 1)
    have b2 := Iv.mem_def.1 (hb' 2)
    unfold apply at e0 e1 e2
    rw [Fin.sum_univ_three, ha, ha, ha] at e0 e1 e2
    replace e0 : 2 * x.1 + 1 * x.2.1 + 1 * x.2.2 = b' 0 := e0
    replace e1 : 0 * x.1 + 1 * x.2.1 + 0 * x.2.2 = b' 1 := e1
    replace e2 : 0 * x.1 + 0 * x.2.1 + 1 * x.2.2 = b' 2 := e2
    replace b0 : 1 ≤ b' 0 ∧ b' 0 ≤ 4 := b0
    replace b1 : -5 ≤ b' 1 ∧ b' 1 ≤ 5 := b1
    replace b2 : -5 ≤ b' 2 ∧ b' 2 ≤ 5 := b2
    obtain ⟨c0, d0⟩ := b0
    obtain ⟨c1, d1⟩ := b1
    obtain ⟨c2, d2⟩ := b2
    refine ⟨abs_le.2 ⟨?_, ?_⟩, abs_le.2 ⟨?_, ?_⟩, abs_le.2 ⟨?_, ?_⟩⟩ <;> linarith
  intro h
  obtain ⟨Vs, e, hF⟩ := h hb
  obtain ⟨V, Vs', rfl, P, hP, v, hv, hq⟩ := firstHas_ok plane_outside e
  unfold orthants3 at hF
  cases hF with
  | cons hV _ =>
      have := ((hV.1 v).1 ⟨P, hP, hv⟩).1.1 0
      have h2 := of_decide_eq_true hq
      simp at this
      linarith

/-- C86: the eight orthants are visited once each, and together their parts make up the solution set. -/
theorem C86_orthants {n : Nat} (A : Fin n → Fin 3 → Iv K) (b : Fin n → Iv K) (cons : Consistency) :
    (∀ ort : Fin 3 → Bool, orthants3.count ort = 1) ∧
    ∀ p : V3 K, SolSet A b cons ![p.1, p.2.1, p.2.2] ↔ ∃ ort ∈ orthants3, Part3 A b cons ort p := by
  have hall : ∀ ort : Fin 3 → Bool, orthants3.count ort = 1 := by decide
  refine ⟨hall, fun p => ⟨fun h => ?_, fun ⟨_, _, h⟩ => h.2⟩⟩
  refine ⟨fun k => decide (0 ≤ ![p.1, p.2.1, p.2.2] k), ?_, ?_, h⟩
  · exact List.count_pos_iff.mp (by rw [hall]; exact Nat.one_pos)
  · intro k
    by_cases hk : 0 ≤ ![p.1, p.2.1, p.2.2] k
    · simp [hk]
    · simp [hk, (not_le.mp hk).le]

end IntvalPy
