/-
C106, the number by which PSS prunes its list: `Omega(WorkListb - WorkListA @ Q.mid, ...)`,
/repo/intvalpy/linear/PSS.py:95-126, 218-231.  In exact arithmetic its right-hand sides are exactly the values left
for the estimated component when the others are the midpoints of the box, and the value taken from the pieces is the
least lower end when no piece is empty and the greatest lower end of the nonempty ones otherwise.
-/
import Verif.PropsPSSReturn

set_option autoImplicit false
set_option linter.unusedSectionVars false

namespace IntvalPy
open Spec

variable {K : Type*} [Field K] [LinearOrder K] [IsStrictOrderedRing K]

/-- C106: in exact arithmetic the row `WorkListb - WorkListA @ Q.mid` is exactly the set of the numbers
`b' - Σ A'ⱼ mⱼ`, with the midpoints `m` of the box. -/
theorem C106_mid_row {n m : ℕ} (hm : 0 < m) (A : Fin n → Fin (m + 1) → Iv K) (b : Fin n → Iv K) (nu : Fin (m + 1))
    (Q : Fin m → Iv K) (hA : ∀ i j, Ordinary (A i j)) (hb : ∀ i, Ordinary (b i)) (i : Fin n) :
    IsRange (pssResMid Rnd.exact A b nu Q i) (fun s => ∃ b' ∈ b i, ∃ A' : Fin m → K,
      (∀ j, A' j ∈ A i (nu.succAbove j)) ∧ s = b' - ∑ j, A' j * (((Q j).a + (Q j).b) / 2)) := by
  obtain ⟨Z, hZ, hr⟩ := C26_matvec_range (fun j => A i (nu.succAbove j)) (fun j => ((Q j).a + (Q j).b) / 2) hm
    (fun j => hA i _)
  have hmid : (fun j => (Q j).mid Rnd.exact) = fun j => ((Q j).a + (Q j).b) / 2 := by
    funext j
    simp only [Iv.mid, Rnd.exact_nr, id]
    ring
  have he : pssResMid Rnd.exact A b nu Q i = (b i).sub Rnd.exact Z := by
    unfold pssResMid
    rw [hmid, hZ]
    rfl
  obtain ⟨h1, ⟨A1, hA1, e1⟩, ⟨A2, hA2, e2⟩⟩ := hr
  rw [he]
  refine ⟨?_, ?_, ?_⟩
  · rintro s ⟨b', hb', A', hA', rfl⟩
    exact C01_sub_encloses Rnd.exact (b i) Z _ ⟨b', hb', _, h1 _ ⟨A', hA', rfl⟩, rfl⟩
  · refine ⟨(b i).a, ⟨le_rfl, (hb i).2⟩, A2, hA2, ?_⟩
    rw [← e2]
    simp [Iv.sub, Rnd.exact_dn, (hb i).1]
  · refine ⟨(b i).b, ⟨(hb i).2, le_rfl⟩, A1, hA1, ?_⟩
    rw [← e1]
    simp [Iv.sub, Rnd.exact_up, (hb i).1]

/-- The midpoints are those of the box: `x₂` is replaced by `3` in `[1, 2] x₁ + [1, 1] x₂ = [4, 6]`. -/
example : pssResMid (Rnd.exact : Rnd ℚ) (fun _ : Fin 1 => ![⟨.classical, 1, 2⟩, ⟨.classical, 1, 1⟩])
    (fun _ => ⟨.classical, 4, 6⟩) 0 (fun _ => ⟨.classical, 2, 4⟩) 0 = ⟨.classical, 1, 3⟩ := by
  decide +kernel

theorem foldl_min_least (l : List (K × K)) : ∀ x : K, IsLeast {v | v = x ∨ ∃ r ∈ l, v = r.1}
    (l.foldl (fun m s => min m s.1) x) := by
  induction l with
  | nil => intro x; simp [IsLeast, lowerBounds]
  | cons r l ih =>
      intro x
      obtain ⟨h1, h2⟩ := ih (min x r.1)
      rw [List.foldl_cons]
      constructor
      · rcases h1 with h1 | ⟨s, hs, h1⟩
        · rcases min_choice x r.1 with e | e
          · exact .inl (h1.trans e)
          · exact .inr ⟨r, List.mem_cons_self, h1.trans e⟩
        · exact .inr ⟨s, List.mem_cons_of_mem _ hs, h1⟩
      · rintro v (rfl | ⟨s, hs, rfl⟩)
        · exact (h2 (.inl rfl)).trans (min_le_left _ _)
        · rcases List.mem_cons.mp hs with rfl | hs
          · exact (h2 (.inl rfl)).trans (min_le_right _ _)
          · exact h2 (.inr ⟨s, hs, rfl⟩)

theorem foldl_max_greatest (l : List (K × K)) : ∀ x : K, IsGreatest {v | v = x ∨ ∃ r ∈ l, v = r.1}
    (l.foldl (fun m s => max m s.1) x) := by
  induction l with
  | nil => intro x; simp [IsGreatest, upperBounds]
  | cons r l ih =>
      intro x
      obtain ⟨h1, h2⟩ := ih (max x r.1)
      rw [List.foldl_cons]
      constructor
      · rcases h1 with h1 | ⟨s, hs, h1⟩
        · rcases max_choice x r.1 with e | e
          · exact .inl (h1.trans e)
          · exact .inr ⟨r, List.mem_cons_self, h1.trans e⟩
        · exact .inr ⟨s, List.mem_cons_of_mem _ hs, h1⟩
      · rintro v (rfl | ⟨s, hs, rfl⟩)
        · exact (le_max_left _ _).trans (h2 (.inl rfl))
        · rcases List.mem_cons.mp hs with rfl | hs
          · exact (le_max_right _ _).trans (h2 (.inl rfl))
          · exact h2 (.inr ⟨s, hs, rfl⟩)

/-- The lower ends of the nonempty pieces. -/
def LowerEnds (res : List (Option (K × K))) : Set K := {v | ∃ h, some (v, h) ∈ res}

theorem lowerEnds_filterMap {res : List (Option (K × K))} {r : K × K} {rs : List (K × K)}
    (h : res.filterMap id = r :: rs) : {v | v = r.1 ∨ ∃ s ∈ rs, v = s.1} = LowerEnds res := by
  ext v
  have hm : ∀ p : K × K, some p ∈ res ↔ p = r ∨ p ∈ rs := by
    intro p
    rw [← List.mem_cons, ← h, List.mem_filterMap]
    constructor
    · intro hp; exact ⟨some p, hp, rfl⟩
    · rintro ⟨q, hq, e⟩; cases e; exact hq
  constructor
  · rintro (rfl | ⟨s, hs, rfl⟩)
    · exact ⟨r.2, (hm _).mpr (.inl rfl)⟩
    · exact ⟨s.2, (hm _).mpr (.inr hs)⟩
  · rintro ⟨h', hh⟩
    rcases (hm _).mp hh with e | e
    · exact .inl (by rw [← e])
    · exact .inr ⟨_, e, rfl⟩

/-- C106: the value `Omega` takes from two pieces: `infinity` exactly when all are empty; the least lower end when
none is empty; the greatest lower end of the nonempty ones when some are empty. -/
theorem C106_omega_value (res : List (Option (K × K))) :
    (omegaVal true res = none ↔ ∀ r ∈ res, r = none) ∧
    (∀ v, omegaVal true res = some v → none ∉ res → IsLeast (LowerEnds res) v) ∧
    (∀ v, omegaVal true res = some v → none ∈ res → IsGreatest (LowerEnds res) v) := by
  have hall : (res.all fun r => r.isNone) = true ↔ ∀ r ∈ res, r = none := by
    rw [List.all_eq_true]
    exact ⟨fun h r hr => Option.isNone_iff_eq_none.mp (h r hr), fun h r hr => Option.isNone_iff_eq_none.mpr (h r hr)⟩
  have hany : (res.any fun r => r.isNone) = true ↔ none ∈ res := by
    rw [List.any_eq_true]
    constructor
    · rintro ⟨r, hr, h⟩; rw [Option.isNone_iff_eq_none] at h; exact h ▸ hr
    · intro h; exact ⟨_, h, rfl⟩
  have hne : ¬(∀ r ∈ res, r = none) → ∃ r rs, res.filterMap id = r :: rs := by
    intro h
    cases hf : res.filterMap id with
    | nil =>
        refine absurd (fun r hr => ?_) h
        cases r with
        | none => rfl
        | some p =>
            have : p ∈ res.filterMap id := List.mem_filterMap.mpr ⟨some p, hr, rfl⟩
            rw [hf] at this
            cases this
    | cons r rs => exact ⟨r, rs, rfl⟩
  unfold omegaVal
  rw [if_pos rfl]
  by_cases h : ∀ r ∈ res, r = none
  · rw [if_pos (hall.mpr h)]
    exact ⟨⟨fun _ => h, fun _ => rfl⟩, (fun v hv => by cases hv), (fun v hv => by cases hv)⟩
  · rw [if_neg fun h' => h (hall.mp h')]
    obtain ⟨r, rs, hf⟩ := hne h
    by_cases hn : none ∈ res
    · rw [if_pos (hany.mpr hn)]
      unfold nanMax
      rw [hf]
      refine ⟨⟨(fun e => by cases e), fun e => absurd e h⟩, fun v _ e => absurd hn e, fun v hv _ => ?_⟩
      cases hv
      rw [← lowerEnds_filterMap hf]
      exact foldl_max_greatest rs r.1
    · rw [if_neg fun h' => hn (hany.mp h')]
      unfold nanMin
      rw [hf]
      refine ⟨⟨(fun e => by cases e), fun e => absurd e h⟩, fun v hv _ => ?_, fun v _ e => absurd e hn⟩
      cases hv
      rw [← lowerEnds_filterMap hf]
      exact foldl_min_least rs r.1

/-- The three cases. -/
example : omegaVal true [some ((1 : ℚ), 2), some (3, 4)] = some 1 ∧
    omegaVal true [some ((1 : ℚ), 2), none, some (3, 4)] = some 3 ∧
    omegaVal true [(none : Option (ℚ × ℚ)), none] = none := by
  decide +kernel

/-- C52: when the start estimate fails the box is `[-1e14, 1e14]`, classical, in every component. -/
theorem C52_wide_box (m : ℕ) (j : Fin m) (s : K) :
    Ordinary (pssWide m j : Iv K) ∧ (s ∈ (pssWide m j : Iv K) ↔ |s| ≤ 10 ^ 14) := by
  refine ⟨⟨rfl, ?_⟩, ?_⟩
  · simp only [pssWide]
    have : (0 : K) ≤ 10 ^ 14 := by positivity
    linarith
  · rw [Iv.mem_def, abs_le]
    rfl

example : ¬ (2 * 10 ^ 14 : ℚ) ∈ (pssWide 1 0 : Iv ℚ) := by
  rw [(C52_wide_box 1 0 _).2]
  norm_num

/-- Without `x0` the start box of a tall system is the one of a call of `Rohn` with its documented defaults. -/
example {n m : ℕ} (inv : (Fin m → Fin m → ℚ) → Except Err (Fin m → Fin m → ℚ)) (A : Fin n → Fin m → Iv ℚ)
    (b : Fin n → Iv ℚ) (V) (h : rohnUni inv A b (1 / 1000000000000) 2000 = .ok V) : startRohn inv A b = V.1 := by
  have e : (1 / 1000000000000 : ℚ) = 1 / 10 ^ 12 := by norm_num
  rw [e] at h
  unfold startRohn
  rw [h]

end IntvalPy
