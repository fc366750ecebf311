import Verif.PropsPPSSharp
import Verif.PropsPPSTags
import Verif.PropsObjects

/-!
# Where `PPS` splits, and short vectors with `in`

The place of the split does not matter for the correctness of the bounds (C79), so it is stated here on its own: no other entry of
the matrix and no component of the right-hand side has a greater product of sensitivity and width.
-/

set_option autoImplicit false
set_option linter.unusedSectionVars false

namespace IntvalPy
open Spec

variable {K : Type*} [Field K] [LinearOrder K] [IsStrictOrderedRing K]

/-- The estimated effect of an interval of width `w` whose sensitivity lies in `d`: the greatest `|s| * w` for `s` in `d`. -/
def IsEffect (d : Iv K) (w e : K) : Prop := (∀ s, s ∈ d → |s| * w ≤ e) ∧ ∃ s, s ∈ d ∧ |s| * w = e

theorem mag_effect (d : Iv K) (hd : Ordinary d) (w : K) (hw : 0 ≤ w) : IsEffect d w (d.mag * w) := by
  obtain ⟨h1, -, ⟨s, hs, h2⟩, -⟩ := C20_characteristics d hd
  exact ⟨fun s hs => mul_le_mul_of_nonneg_right (h1 s hs).2 hw, s, hs, by rw [h2]⟩

theorem effect_unique {d : Iv K} {w e e' : K} (h : IsEffect d w e) (h' : IsEffect d w e') : e = e' := by
  obtain ⟨h1, s, hs, h2⟩ := h
  obtain ⟨h1', s', hs', h2'⟩ := h'
  exact le_antisymm (h2 ▸ h1' s hs) (h2' ▸ h1 s' hs')

/-- C80: for a nonempty system one pass of `PPS` continues at the entry `ij` of the matrix whose effect on the bound is estimated
the largest, if that effect is larger than the one of every component of the right-hand side, and otherwise at the component `i2`
of the right-hand side with the largest effect.  The sensitivities of the entries are taken before the monotony test, the widths
after it. -/
theorem C80_split_place {n : ℕ} (hn : 0 < n) (P : PpsArg K n) (omega : Option K) (l : PpsEl K n) (rest : List (PpsEl K n))
    (hY : ∀ i, Ordinary (l.Y P.nu i)) (hx : ∀ j, Ordinary (l.x j))
    (hQ : ∀ i j, 0 ≤ ((ppsMonotone P l).Q i j).wid P.R) (hr : ∀ i, 0 ≤ ((ppsMonotone P l).r i).wid P.R) :
    ∃ (ij : Fin n × Fin n) (i2 : Fin n) (em ev : K),
      IsEffect (ppsD P l ij.1 ij.2) (((ppsMonotone P l).Q ij.1 ij.2).wid P.R) em ∧
      (∀ k j e, IsEffect (ppsD P l k j) (((ppsMonotone P l).Q k j).wid P.R) e → e ≤ em) ∧
      IsEffect (l.Y P.nu i2) (((ppsMonotone P l).r i2).wid P.R) ev ∧
      (∀ i e, IsEffect (l.Y P.nu i) (((ppsMonotone P l).r i).wid P.R) e → e ≤ ev) ∧
      ppsBody P omega l rest =
        ppsDescend P omega { ppsMonotone P l with tags := ppsRefine (ppsMonotone P l).tags ij.1 ij.2 } (decide (ev < em)) ij i2
          rest := by
  have hd : ∀ i j, Ordinary (ppsD P l i j) := fun i j => by
    have h := C02_mul_ordinary P.R _ _ (hY i) (hx j)
    exact ⟨h.1, neg_le_neg h.2⟩
  cases h1 : argmaxOn (ppsMat P (ppsD P l) (ppsMonotone P l)) (allPairs n) with
  | none =>
    have := mem_allPairs ((⟨0, hn⟩, ⟨0, hn⟩) : Fin n × Fin n)
    rw [argmaxOn_none _ _ h1] at this
    cases this
  | some ij =>
    cases h2 : argmaxOn (ppsVec P (ppsMonotone P l)) (List.finRange n) with
    | none =>
      have := List.mem_finRange (⟨0, hn⟩ : Fin n)
      rw [argmaxOn_none _ _ h2] at this
      cases this
    | some i2 =>
      have m1 := (argmaxOn_spec _ _ _ h1).2
      have m2 := (argmaxOn_spec _ _ _ h2).2
      refine ⟨ij, i2, ppsMat P (ppsD P l) (ppsMonotone P l) ij, ppsVec P (ppsMonotone P l) i2, mag_effect _ (hd _ _) _ (hQ _ _),
        fun k j e he => ?_, mag_effect _ (hY _) _ (hr _), fun i e he => ?_, ?_⟩
      · rw [effect_unique he (mag_effect _ (hd k j) _ (hQ k j))]
        exact m1 (k, j) (mem_allPairs _)
      · rw [effect_unique he (mag_effect _ (hY i) _ (hr i))]
        exact m2 i (List.mem_finRange _)
      · unfold ppsBody
        dsimp only
        rw [h1, h2]

/-- The empty system: `mat.max()` raises `ValueError`. -/
theorem C80_empty (P : PpsArg K 0) (omega : Option K) (l : PpsEl K 0) (rest : List (PpsEl K 0)) :
    ppsBody P omega l rest = .error (some .valueError) := rfl

section pins

/-- A system with one entry of the matrix and one of the right-hand side of different effects. -/
private def pickArg : PpsArg ℚ 2 :=
  { R := Rnd.exact, hbr := fun _ _ => .ok fun _ => ⟨.classical, 1, 2⟩, inverse := fun _ => .ok fun _ _ => ⟨.classical, -1, 1⟩,
    solve := fun _ _ => .ok fun _ => 1, nu := 0, tol := 0, fuel := 10 }

private def pickEl : PpsEl ℚ 2 :=
  { gamma := 0, Q := ![![⟨.classical, 1, 2⟩, ⟨.classical, 3, 7⟩], ![⟨.classical, 5, 8⟩, ⟨.classical, 0, 1⟩]],
    r := ![⟨.classical, 0, 3⟩, ⟨.classical, 0, 5⟩], Y := fun _ => ![⟨.classical, -2, 1⟩, ⟨.classical, -1, 3⟩],
    x := ![⟨.classical, 1, 2⟩, ⟨.classical, -1, 2⟩], tags := ⟨fun _ _ => 0, fun _ => 0, fun _ => 0⟩ }

/-- All hypotheses of `C80_split_place` hold for a system with entries of different effects. -/
example : (∀ i, Ordinary (pickEl.Y pickArg.nu i)) ∧ (∀ j, Ordinary (pickEl.x j)) ∧
    (∀ i j, 0 ≤ ((ppsMonotone pickArg pickEl).Q i j).wid pickArg.R) ∧
    ∀ i, 0 ≤ ((ppsMonotone pickArg pickEl).r i).wid pickArg.R := by
  refine ⟨fun i => ?_, fun j => ?_, ?_, ?_⟩
  · fin_cases i <;> exact ⟨rfl, by decide +kernel⟩
  · fin_cases j <;> exact ⟨rfl, by decide +kernel⟩
  · decide +kernel
  · decide +kernel

/-- The products for the matrix and for the right-hand side, and the place of the first maximum of each. -/
example : (ppsMat pickArg (ppsD pickArg pickEl) pickEl (0, 1), ppsMat pickArg (ppsD pickArg pickEl) pickEl (1, 0),
    ppsVec pickArg pickEl 0, ppsVec pickArg pickEl 1) = (16, 18, 6, 15) ∧
    argmaxOn (ppsMat pickArg (ppsD pickArg pickEl) pickEl) (allPairs 2) = some (1, 0) ∧
    argmaxOn (ppsVec pickArg pickEl) (List.finRange 2) = some 1 := by decide +kernel

/-- Equal effects: the right-hand side is split (`z1 > z2` is false). -/
private def tieEl : PpsEl ℚ 1 :=
  { gamma := 0, Q := fun _ _ => ⟨.classical, 1, 2⟩, r := fun _ => ⟨.classical, 0, 1⟩, Y := fun _ _ => ⟨.classical, -1, 1⟩,
    x := fun _ => ⟨.classical, -1, 1⟩, tags := ⟨fun _ _ => 0, fun _ => 0, fun _ => 0⟩ }

private def tieArg : PpsArg ℚ 1 :=
  { R := Rnd.exact, hbr := fun _ _ => .ok fun _ => ⟨.classical, 1, 2⟩, inverse := fun _ => .ok fun _ _ => ⟨.classical, -1, 1⟩,
    solve := fun _ _ => .ok fun _ => 1, nu := 0, tol := 0, fuel := 10 }

example : ((ppsBody tieArg none tieEl []).toOption.map fun p => p.1.map fun e => ((e.Q 0 0).a, (e.Q 0 0).b, (e.r 0).a, (e.r 0).b)) =
    some [(1, 2, 1, 1), (1, 2, 0, 0)] := by decide +kernel

/-- A zero sensitivity fixes the entry at its lower end, and the tag is the one of the second test. -/
example : let e : PpsEl ℚ 1 := { tieEl with Y := fun _ _ => ⟨.classical, 0, 0⟩ }
    (((ppsMonotone tieArg e).Q 0 0).a, ((ppsMonotone tieArg e).Q 0 0).b, (ppsMonotone tieArg e).tags.W 0 0,
      ((ppsMonotone tieArg e).r 0).b, (ppsMonotone tieArg e).tags.s 0) = (1, 1, -1, 0, 1) := by decide +kernel

/-- `W[k, j]` is compared with its own old value: the pair is appended exactly if that changes. -/
example : let p : PpsProp 2 := ⟨⟨![![1, -1], ![-1, 1]], ![1, 1], ![1, 1]⟩, [], [], [], false, false, false⟩
    (p.setW (0, 0)).omegas = [] ∧ (p.setW (0, 0)).wc = false ∧ (p.setW (0, 1)).omegas = [(0, 1)] ∧ (p.setW (0, 1)).wc = true ∧
      (p.setW (1, 0)).omegas = [(1, 0)] ∧ (p.setW (0, 1)).tags.W 0 1 = 1 := by decide

/-- The flags at the start of the propagation. -/
example (g : PpsTags 2) : ((startW g 0 1 1).wc, (startW g 0 1 1).sc, (startW g 0 1 1).tc) = (true, false, false) ∧
    ((startS g 0 1).wc, (startS g 0 1).sc, (startS g 0 1).tc) = (false, true, false) ∧
    ((startNone g).wc, (startNone g).sc, (startNone g).tc) = (false, false, false) := ⟨rfl, rfl, rfl⟩

end pins

/-! ## Short vectors -/

/-- C19 (arrays): if the vector is shorter than the array, the answer is `True` when a component that is there is contained, and
`IndexError` otherwise. -/
theorem C19_in_array_short (Y : List (Iv K)) (y : List K) (hl : y.length < Y.length) :
    ((∃ p ∈ Y.zip y, p.2 ∈ p.1) → arrContains Y y = .ok true) ∧
      ((¬ ∃ p ∈ Y.zip y, p.2 ∈ p.1) → arrContains Y y = .error .indexError) := by
  obtain ⟨r, h1, h2⟩ := arrContainsLoop_iff (Y.zip y) (some false) (Or.inl (by simp)) (by simp)
  unfold arrContains
  rw [if_pos hl, h1]
  constructor <;> intro h
  · rw [h2.2 h]
  · cases r
    · rfl
    · exact absurd (h2.1 rfl) h

example : arrContains ([⟨.classical, 0, 1⟩, ⟨.classical, 2, 3⟩] : List (Iv ℚ)) [5] = .error .indexError ∧
    arrContains ([⟨.classical, 0, 1⟩, ⟨.classical, 2, 3⟩] : List (Iv ℚ)) [1] = .ok true := by
  constructor <;> norm_num [arrContains, arrContainsLoop, Iv.containsNum]

end IntvalPy
