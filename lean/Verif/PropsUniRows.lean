import Verif.PropsIspaeUni

/-!
# The vector of the objective `Uni` row by row (C108)

For the norm `inf` only the decisive row matters; for the norm `l1` the vector is wrong by exactly the slopes of the rows
whose values meet the midpoint of the output.
-/

set_option autoImplicit false
set_option linter.unusedSectionVars false

namespace IntvalPy
open Spec

variable {K : Type*} [Field K] [LinearOrder K] [IsStrictOrderedRing K] {m n : ℕ}

/-- Some value of the model is at most the midpoint of the output and some value is at least the midpoint. -/
def MeetsMid {C : ℕ} (basis : ℕ → K → K) (D : IspaeData K m C) (beta : Coeffs K D.order) (i : Fin m) : Prop :=
  (∃ v, ModelValues basis beta (D.x i) v ∧ v ≤ (D.y i).mid Rnd.exact) ∧
  ∃ v, ModelValues basis beta (D.x i) v ∧ (D.y i).mid Rnd.exact ≤ v

/-- A row of the linear model meets the midpoint of the output. -/
def RowMeetsMid (row : Fin n → Iv K) (y : Iv K) (x : Fin n → K) : Prop :=
  rowMid row x - rowRad row x ≤ y.mid Rnd.exact ∧ y.mid Rnd.exact ≤ rowMid row x + rowRad row x

/-- The residual of a row is at most the weighted radius of the output. -/
theorem ispaeResidual_le {C : ℕ} (basis : ℕ → K → K) (roots : (K → K) → List K) (D : IspaeData K m C)
    (beta : Coeffs K D.order) (i : Fin m) (hw : 0 ≤ D.weight i) :
    ispaeResidual basis roots true D beta i ≤ D.weight i * (D.y i).rad Rnd.exact := by
  unfold ispaeResidual
  dsimp only
  refine mul_le_mul_of_nonneg_left ?_ hw
  rw [if_pos rfl]
  have : (0 : K) ≤ if (ispaeCentered basis roots D beta i).a * (ispaeCentered basis roots D beta i).b ≤ 0 then 0
      else min |(ispaeCentered basis roots D beta i).a| |(ispaeCentered basis roots D beta i).b| := by
    split_ifs
    · exact le_refl _
    · exact le_min (abs_nonneg _) (abs_nonneg _)
  linarith

/-- A row meeting the midpoint has the weighted radius as its residual. -/
theorem ispaeResidual_meets {C : ℕ} (hC : 0 < C) (basis : ℕ → K → K) (roots : (K → K) → List K) (D : IspaeData K m C)
    (beta : Coeffs K D.order) (i : Fin m) (hx : ∀ c, (D.x i c).a ≤ (D.x i c).b)
    (h1 : ColumnsExact basis roots beta (D.x i)) (hm : MeetsMid basis D beta i) :
    ispaeResidual basis roots true D beta i = D.weight i * (D.y i).rad Rnd.exact := by
  obtain ⟨-, o1, r1⟩ := ispaeVal_range hC basis roots D.order beta (D.x i) hx h1
  obtain ⟨ea, eb⟩ := ispaeCentered_ends basis roots D beta i
  obtain ⟨⟨u, hu, hu'⟩, v, hv, hv'⟩ := hm
  have p := (r1.1 u hu).1
  have q := (r1.1 v hv).2
  unfold ispaeResidual
  dsimp only
  rw [if_pos rfl, ea, eb, if_pos, sub_zero]
  apply mul_nonpos_of_nonpos_of_nonneg <;> linarith

/-- C108 for the norm `inf`: only the decisive row, the one with the least residual, matters.  The value is minus that
residual.  If the midpoint of its output lies on the same side of the values of the model for both coefficient vectors,
the vector is a subgradient between them, whatever the other rows do.  If its values meet the midpoint, no coefficients
at all give a smaller value: the vector need not be zero, but there is nothing left to improve. -/
theorem C108_inf_decisive {C : ℕ} (basis : ℕ → K → K) (roots : (K → K) → List K) (D : IspaeData K m C)
    (beta g : Coeffs K D.order) (f : K) (h1 : ∀ i, ColumnsExact basis roots beta (D.x i))
    (h : ispaeCalcfg basis roots (some true) .inf D beta = .ok (f, g)) :
    ∃ i, f = -ispaeResidual basis roots true D beta i ∧
      (∀ k, ispaeResidual basis roots true D beta i ≤ ispaeResidual basis roots true D beta k) ∧
      (∀ beta' g' f', ispaeCalcfg basis roots (some true) .inf D beta' = .ok (f', g') →
        SameSigns beta beta' → SameSide basis D beta beta' i → ColumnsExact basis roots beta' (D.x i) →
        (∀ c (d : Fin (D.order c)),
          IsRange (expanded basis roots D.order (D.x i) c d) (ValuesOn (basis (d + 1)) (D.x i c))) →
        (∀ upper, ∃ t : Fin C → K, (∀ c, t c ∈ D.x i c) ∧
          ∀ c (d : Fin (D.order c)), basis (d + 1) (t c) = usedEnd basis roots beta (D.x i) upper c d) →
        f + ∑ c, ∑ d, g c d * (beta' c d - beta c d) ≤ f') ∧
      (MeetsMid basis D beta i → 0 ≤ D.weight i → f = -(D.weight i * (D.y i).rad Rnd.exact) ∧
        ∀ beta' g' f', ispaeCalcfg basis roots (some true) .inf D beta' = .ok (f', g') → f ≤ f') := by
  have least : ∀ (beta' g' : Coeffs K D.order) (f' : K) (i : Fin m),
      ispaeCalcfg basis roots (some true) .inf D beta' = .ok (f', g') →
      -ispaeResidual basis roots true D beta' i ≤ f' := by
    intro beta' g' f' i h'
    unfold ispaeCalcfg wrapNorm at h'
    split_ifs at h'
    dsimp only at h'
    cases hi' : npArgmin (ispaeResidual basis roots true D beta') with
    | error e => rw [hi'] at h'; cases h'
    | ok i' =>
      rw [hi'] at h'
      injection h' with h'
      obtain ⟨rfl, rfl⟩ := Prod.mk.inj h'
      obtain ⟨k, hk, hmin'⟩ := npArgmin_ok i'.pos (ispaeResidual basis roots true D beta')
      rw [hi'] at hk
      injection hk with hk
      subst hk
      exact neg_le_neg (hmin' i)
  unfold ispaeCalcfg at h
  split_ifs at h with hx hC
  have hx' : ∀ i c, (D.x i c).a ≤ (D.x i c).b := by
    intro i c
    by_contra hcon
    exact hx ⟨i, c, not_le.1 hcon⟩
  have hC' := Nat.pos_of_ne_zero hC
  unfold wrapNorm at h
  dsimp only at h
  cases hi : npArgmin (ispaeResidual basis roots true D beta) with
  | error e => rw [hi] at h; cases h
  | ok i =>
    rw [hi] at h
    injection h with h
    obtain ⟨rfl, rfl⟩ := Prod.mk.inj h
    obtain ⟨k, hk, hmin⟩ := npArgmin_ok i.pos (ispaeResidual basis roots true D beta)
    rw [hi] at hk
    injection hk with hk
    subst hk
    refine ⟨i, rfl, hmin, ?_, ?_⟩
    · intro beta' g' f' h' hs hside h2 h3 h4
      have row := ispae_uni_row hC' basis roots D beta beta' i (hx' i) hs hside (h1 i) h2 h3 h4
      have := least beta' g' f' i h'
      simp only [List.map_cons, List.map_nil, List.sum_cons, List.sum_nil, add_zero, neg_mul,
        Finset.sum_neg_distrib]
      linarith
    · intro hm hw
      have e := ispaeResidual_meets hC' basis roots D beta i (hx' i) (h1 i) hm
      refine ⟨by dsimp only; rw [e], ?_⟩
      intro beta' g' f' h'
      have := least beta' g' f' i h'
      have := ispaeResidual_le basis roots D beta' i hw
      dsimp only
      linarith

/-- C108 for the norm `l1`: when every row either lies on one side for both coefficient vectors or meets the midpoint for
both, the vector misses the change of the function by exactly the slopes of the rows that meet the midpoint. -/
theorem C108_l1_error {C : ℕ} (basis : ℕ → K → K) (roots : (K → K) → List K)
    (D : IspaeData K m C) (beta beta' g g' : Coeffs K D.order) (f f' : K) (hs : SameSigns beta beta')
    (meet : Finset (Fin m)) (hmeet : ∀ i ∈ meet, MeetsMid basis D beta i ∧ MeetsMid basis D beta' i)
    (hside : ∀ i ∉ meet, SameSide basis D beta beta' i)
    (h1 : ∀ i, ColumnsExact basis roots beta (D.x i)) (h2 : ∀ i, ColumnsExact basis roots beta' (D.x i))
    (h3 : ∀ i c (d : Fin (D.order c)),
      IsRange (expanded basis roots D.order (D.x i) c d) (ValuesOn (basis (d + 1)) (D.x i c)))
    (h4 : ∀ i upper, ∃ t : Fin C → K, (∀ c, t c ∈ D.x i c) ∧
      ∀ c (d : Fin (D.order c)), basis (d + 1) (t c) = usedEnd basis roots beta (D.x i) upper c d)
    (h : ispaeCalcfg basis roots (some true) .l1 D beta = .ok (f, g))
    (h' : ispaeCalcfg basis roots (some true) .l1 D beta' = .ok (f', g')) :
    f' = f + ∑ c, ∑ d, g c d * (beta' c d - beta c d) +
      ∑ i ∈ meet, ∑ c, ∑ d, ispaeDiff basis roots true D beta i c d * (beta' c d - beta c d) := by
  unfold ispaeCalcfg at h h'
  split_ifs at h with hx hC
  rw [if_neg hx] at h'
  dsimp only at h h'
  rw [if_neg hC] at h'
  have hx' : ∀ i c, (D.x i c).a ≤ (D.x i c).b := by
    intro i c
    by_contra hcon
    exact hx ⟨i, c, not_le.1 hcon⟩
  have hC' := Nat.pos_of_ne_zero hC
  have row : ∀ i, ispaeResidual basis roots true D beta' i = ispaeResidual basis roots true D beta i +
      ((∑ c, ∑ d, ispaeDiff basis roots true D beta i c d * (beta' c d - beta c d)) -
        if i ∈ meet then ∑ c, ∑ d, ispaeDiff basis roots true D beta i c d * (beta' c d - beta c d) else 0) := by
    intro i
    by_cases him : i ∈ meet
    · rw [if_pos him, sub_self, add_zero,
        ispaeResidual_meets hC' basis roots D beta i (hx' i) (h1 i) (hmeet i him).1,
        ispaeResidual_meets hC' basis roots D beta' i (hx' i) (h2 i) (hmeet i him).2]
    · rw [if_neg him, sub_zero]
      exact ispae_uni_row hC' basis roots D beta beta' i (hx' i) hs (hside i him) (h1 i) (h2 i) (h3 i) (h4 i)
  unfold wrapNorm at h h'
  dsimp only at h h'
  injection h with h
  obtain ⟨rfl, rfl⟩ := Prod.mk.inj h
  injection h' with h'
  obtain ⟨rfl, rfl⟩ := Prod.mk.inj h'
  have rows := Finset.sum_congr (rfl : (Finset.univ : Finset (Fin m)) = Finset.univ) fun i _ => row i
  rw [Finset.sum_add_distrib, Finset.sum_sub_distrib, Finset.sum_ite_mem, Finset.univ_inter] at rows
  have e : ∀ c d, (List.map (fun i => ispaeDiff basis roots true D beta i c d) (List.finRange m)).sum =
      ∑ i, ispaeDiff basis roots true D beta i c d := by
    intro c d
    rw [← List.ofFn_eq_map, List.sum_ofFn]
  have e2 : ∑ c, ∑ d, (∑ i, ispaeDiff basis roots true D beta i c d) * (beta' c d - beta c d) =
      ∑ i, ∑ c, ∑ d, ispaeDiff basis roots true D beta i c d * (beta' c d - beta c d) := by
    rw [Finset.sum_comm]
    refine Finset.sum_congr rfl fun c _ => ?_
    rw [Finset.sum_comm]
    exact Finset.sum_congr rfl fun d _ => Finset.sum_mul _ _ _
  simp only [e, neg_mul, Finset.sum_neg_distrib]
  rw [e2, rows]
  ring

/-- The model values of `uniData` for one coefficient. -/
theorem uniData_values (b : ℚ) (v : ℚ) :
    ModelValues (fun d t => t ^ d) (fun _ _ => b : Coeffs ℚ uniData.order) (uniData.x 0) v ↔
      ∃ t, 1 ≤ t ∧ t ≤ 2 ∧ v = b * t := by
  have e : ∀ (t : Fin 1 → ℚ),
      (∑ c, ∑ d : Fin (uniData.order c), (fun _ _ => b : Coeffs ℚ uniData.order) c d * t c ^ ((d : ℕ) + 1)) = b * t 0 := by
    intro t
    rw [Fin.sum_univ_one]
    change (∑ d : Fin 1, b * t 0 ^ ((d : ℕ) + 1)) = _
    rw [Fin.sum_univ_one]
    simp
  constructor
  · rintro ⟨t, ht, rfl⟩
    exact ⟨t 0, (ht 0).1, (ht 0).2, e t⟩
  · rintro ⟨t, h1, h2, rfl⟩
    exact ⟨fun _ => t, fun _ => ⟨h1, h2⟩, (e fun _ => t).symm⟩

/-- With the coefficient 3 the values `[3, 6]` meet the midpoint 9/2 and the function has its least value `-1/2`; with
the coefficients 5 and 6 the midpoint lies below the values. -/
example : MeetsMid (fun d t => t ^ d) uniData (fun _ _ => 3) 0 ∧
    SameSide (fun d t => t ^ d) uniData (fun _ _ => 5) (fun _ _ => 6) 0 ∧
    (ispaeCalcfg (fun d t => t ^ d) (fun _ => []) (some true) .inf uniData fun _ _ => 3).map (·.1) = .ok (-1 / 2) := by
  have ym : (uniData.y 0).mid Rnd.exact = 9 / 2 := by decide +kernel
  refine ⟨⟨⟨3, (uniData_values 3 3).2 ⟨1, by norm_num, by norm_num, by norm_num⟩, by rw [ym]; norm_num⟩,
    6, (uniData_values 3 6).2 ⟨2, by norm_num, by norm_num, by norm_num⟩, by rw [ym]; norm_num⟩, Or.inr ?_, by decide +kernel⟩
  rintro v (hv | hv)
  · obtain ⟨t, h1, -, rfl⟩ := (uniData_values 5 v).1 hv
    rw [ym]; linarith
  · obtain ⟨t, h1, -, rfl⟩ := (uniData_values 6 v).1 hv
    rw [ym]; linarith

/-! ### The same for WILS -/

theorem wils_uni_le (X : Fin m → Fin n → Iv K) (y : Fin m → Iv K) (w : Fin m → K) (x : Fin n → K) (i : Fin m)
    (hw : 0 ≤ w i) : wilsResidual .uni (recData X y w) x i ≤ w i * (y i).rad Rnd.exact := by
  unfold wilsResidual
  dsimp only
  refine mul_le_mul_of_nonneg_left ?_ hw
  have : (0 : K) ≤ if infs (recData X y w) x i * sups (recData X y w) x i ≤ 0 then 0
      else min |infs (recData X y w) x i| |sups (recData X y w) x i| := by
    split_ifs
    · exact le_refl _
    · exact le_min (abs_nonneg _) (abs_nonneg _)
  change (y i).rad Rnd.exact - _ ≤ _
  linarith

theorem wils_uni_meets (X : Fin m → Fin n → Iv K) (y : Fin m → Iv K) (w : Fin m → K) (x : Fin n → K) (i : Fin m)
    (hm : RowMeetsMid (X i) (y i) x) : wilsResidual .uni (recData X y w) x i = w i * (y i).rad Rnd.exact := by
  unfold wilsResidual
  dsimp only
  rw [if_pos, sub_zero]
  · rfl
  · have ei : infs (recData X y w) x i = (y i).mid Rnd.exact - (rowMid (X i) x + rowRad (X i) x) := rfl
    have es : sups (recData X y w) x i = (y i).mid Rnd.exact - (rowMid (X i) x - rowRad (X i) x) := rfl
    rw [ei, es]
    obtain ⟨p, q⟩ := hm
    apply mul_nonpos_of_nonpos_of_nonneg <;> linarith

/-- C108 for WILS with the norm `inf`: only the decisive row matters, for `Uni` and `Uss`; where it meets the midpoint,
`Uni` has reached its least value. -/
theorem C108_wils_inf_decisive {F : RecFun} (hF : F ≠ .tol) (X : Fin m → Fin n → Iv K) (y : Fin m → Iv K)
    (w : Fin m → K) (hX : ∀ i j, Ordinary (X i j)) (x g : Fin n → K) (f : K)
    (h : wilsCalcfg F .inf (recData X y w) x = .ok (f, g)) :
    ∃ i, f = -wilsResidual F (recData X y w) x i ∧
      (∀ k, wilsResidual F (recData X y w) x i ≤ wilsResidual F (recData X y w) x k) ∧
      (∀ z g' f', wilsCalcfg F .inf (recData X y w) z = .ok (f', g') → RowPiece F (X i) (y i) x z →
        f + ∑ j, g j * (z j - x j) ≤ f') ∧
      (F = .uni → RowMeetsMid (X i) (y i) x → 0 ≤ w i → f = -(w i * (y i).rad Rnd.exact) ∧
        ∀ z g' f', wilsCalcfg F .inf (recData X y w) z = .ok (f', g') → f ≤ f') := by
  have least : ∀ (z g' : Fin n → K) (f' : K) (i : Fin m), wilsCalcfg F .inf (recData X y w) z = .ok (f', g') →
      -wilsResidual F (recData X y w) z i ≤ f' := by
    intro z g' f' i h'
    unfold wilsCalcfg wrapNorm at h'
    dsimp only at h'
    cases hi' : npArgmin (wilsResidual F (recData X y w) z) with
    | error e => rw [hi'] at h'; cases h'
    | ok i' =>
      rw [hi'] at h'
      injection h' with h'
      obtain ⟨rfl, rfl⟩ := Prod.mk.inj h'
      obtain ⟨k, hk, hmin'⟩ := npArgmin_ok i'.pos (wilsResidual F (recData X y w) z)
      rw [hi'] at hk
      injection hk with hk
      subst hk
      exact neg_le_neg (hmin' i)
  unfold wilsCalcfg wrapNorm at h
  dsimp only at h
  cases hi : npArgmin (wilsResidual F (recData X y w) x) with
  | error e => rw [hi] at h; cases h
  | ok i =>
    rw [hi] at h
    injection h with h
    obtain ⟨rfl, rfl⟩ := Prod.mk.inj h
    obtain ⟨k, hk, hmin⟩ := npArgmin_ok i.pos (wilsResidual F (recData X y w) x)
    rw [hi] at hk
    injection hk with hk
    subst hk
    refine ⟨i, rfl, hmin, ?_, ?_⟩
    · intro z g' f' h' hp
      have := wils_row hF X y w hX x z i hp
      have := least z g' f' i h'
      simp only [List.map_cons, List.map_nil, List.sum_cons, List.sum_nil, add_zero, neg_mul,
        Finset.sum_neg_distrib]
      linarith
    · rintro rfl hm hw
      have e := wils_uni_meets X y w x i hm
      refine ⟨by dsimp only; rw [e], ?_⟩
      intro z g' f' h'
      have := least z g' f' i h'
      have := wils_uni_le X y w z i hw
      dsimp only
      linarith

/-- C108 for WILS with the norm `l1`: the vector misses the change of the function by exactly the slopes of the rows
that meet the midpoint at both points. -/
theorem C108_wils_l1_error (X : Fin m → Fin n → Iv K) (y : Fin m → Iv K)
    (w : Fin m → K) (hX : ∀ i j, Ordinary (X i j)) (x z g g' : Fin n → K) (f f' : K) (meet : Finset (Fin m))
    (hmeet : ∀ i ∈ meet, RowMeetsMid (X i) (y i) x ∧ RowMeetsMid (X i) (y i) z)
    (hp : ∀ i ∉ meet, RowPiece .uni (X i) (y i) x z)
    (h : wilsCalcfg .uni .l1 (recData X y w) x = .ok (f, g))
    (h' : wilsCalcfg .uni .l1 (recData X y w) z = .ok (f', g')) :
    f' = f + ∑ j, g j * (z j - x j) + ∑ i ∈ meet, ∑ j, wilsDiff .uni (recData X y w) x i j * (z j - x j) := by
  have row : ∀ i, wilsResidual .uni (recData X y w) z i = wilsResidual .uni (recData X y w) x i +
      ((∑ j, wilsDiff .uni (recData X y w) x i j * (z j - x j)) -
        if i ∈ meet then ∑ j, wilsDiff .uni (recData X y w) x i j * (z j - x j) else 0) := by
    intro i
    by_cases him : i ∈ meet
    · rw [if_pos him, sub_self, add_zero, wils_uni_meets X y w x i (hmeet i him).1,
        wils_uni_meets X y w z i (hmeet i him).2]
    · rw [if_neg him, sub_zero]
      exact wils_row (by decide) X y w hX x z i (hp i him)
  unfold wilsCalcfg wrapNorm at h h'
  dsimp only at h h'
  injection h with h
  obtain ⟨rfl, rfl⟩ := Prod.mk.inj h
  injection h' with h'
  obtain ⟨rfl, rfl⟩ := Prod.mk.inj h'
  have rows := Finset.sum_congr (rfl : (Finset.univ : Finset (Fin m)) = Finset.univ) fun i _ => row i
  rw [Finset.sum_add_distrib, Finset.sum_sub_distrib, Finset.sum_ite_mem, Finset.univ_inter] at rows
  have e : ∀ j, (List.map (fun mc => wilsDiff .uni (recData X y w) x mc j) (List.finRange m)).sum =
      ∑ i, wilsDiff .uni (recData X y w) x i j := by
    intro j
    rw [← List.ofFn_eq_map, List.sum_ofFn]
  have e2 : ∑ j, (∑ i, wilsDiff .uni (recData X y w) x i j) * (z j - x j) =
      ∑ i, ∑ j, wilsDiff .uni (recData X y w) x i j * (z j - x j) := by
    rw [Finset.sum_comm]
    exact Finset.sum_congr rfl fun j _ => Finset.sum_mul _ _ _
  simp only [e, neg_mul, Finset.sum_neg_distrib]
  rw [e2, rows]
  ring

/-- The hypotheses hold: the row `[1, 2]` with the output `[4, 5]` meets the midpoint 9/2 at the points 3 and 4; the
function is constant there but the vector is `-2`, and the missing slope is 2. -/
example : RowMeetsMid (fun _ : Fin 1 => (⟨.classical, 1, 2⟩ : Iv ℚ)) ⟨.classical, 4, 5⟩ (fun _ => 3) ∧
    RowMeetsMid (fun _ : Fin 1 => (⟨.classical, 1, 2⟩ : Iv ℚ)) ⟨.classical, 4, 5⟩ (fun _ => 4) ∧
    (wilsCalcfg .uni .l1 (recData (fun _ _ => ⟨.classical, 1, 2⟩ : Fin 1 → Fin 1 → Iv ℚ) (fun _ => ⟨.classical, 4, 5⟩)
      fun _ => 1) fun _ => 3).map (fun r => (r.1, r.2 0)) = .ok (-1 / 2, -2) ∧
    wilsDiff .uni (recData (fun _ _ => ⟨.classical, 1, 2⟩ : Fin 1 → Fin 1 → Iv ℚ) (fun _ => ⟨.classical, 4, 5⟩)
      fun _ => 1) (fun _ => 3) 0 0 = 2 := by
  refine ⟨⟨?_, ?_⟩, ⟨?_, ?_⟩, ?_, ?_⟩ <;> decide +kernel

end IntvalPy
