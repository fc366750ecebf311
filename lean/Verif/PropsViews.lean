import Verif.ModelViews
import Verif.PropsArray
import Verif.PropsObjects
import Verif.PropsRecFun
import Verif.PropsRohn
import Verif.PropsOrthant
import Verif.PropsNest
import Verif.PropsModels

/-!
# Functions that read the endpoints of an array through `A.a`, `A.b`

C63 (exact condition), and C24, C27, C43, C48, C59, C76, C100 for interval objects with integer and float endpoints.
-/

set_option autoImplicit false
set_option linter.unusedSectionVars false

namespace IntvalPy
open Spec

variable {m n : ℕ}

/-! ## C63: when a view holds the stored endpoints -/

theorem mapM_ok_forall {α β : Type} (f : α → Except Err β) (xs : List α) (l : List β) (h : xs.mapM f = .ok l) :
    List.Forall₂ (fun x y => f x = .ok y) xs l := by
  induction xs generalizing l with
  | nil => rw [List.mapM_nil] at h; cases h; exact .nil
  | cons x xs ih =>
    rw [List.mapM_cons] at h
    cases hx : f x with
    | error e => rw [hx] at h; cases h
    | ok v =>
      rw [hx] at h
      cases hxs : xs.mapM f with
      | error e => rw [hxs] at h; cases h
      | ok vs => rw [hxs] at h; cases h; exact .cons hx (ih vs hxs)

/-- C63, exact condition: for a nonempty list of endpoints whose integers are at most `2^53` in modulus, the view
holds the stored values exactly when the first endpoint is a float or every endpoint has an integer value that fits
into 64 bits. -/
theorem C63_view_iff (xs : List Num) (hne : xs ≠ []) (hs : ∀ x ∈ xs, x.IntsLe (2 ^ 53)) :
    (∃ l, npVectorizeNum xs = .ok l ∧ l.map Num.val = xs.map Num.val) ↔
      (∃ d, xs.head? = some (.dbl d)) ∨
      ∀ x ∈ xs, ∃ z : ℤ, x.val = .fin z ∧ -9223372036854775808 ≤ z ∧ z ≤ 9223372036854775807 := by
  cases xs with
  | nil => exact absurd rfl hne
  | cons x rest =>
    cases x with
    | dbl d =>
      refine ⟨fun _ => .inl ⟨d, rfl⟩, fun _ => ?_⟩
      exact npVectorize_float_first d rest fun x hx => hs x (List.mem_cons_of_mem _ hx)
    | int z =>
      have hz : -(2 ^ 63) ≤ z ∧ z < 2 ^ 63 := by
        have : |z| ≤ 2 ^ 53 := hs (.int z) (by simp)
        rw [abs_le] at this
        constructor <;> omega
      simp only [npVectorizeNum, hz, and_self, if_true]
      constructor
      · rintro ⟨l, h1, h2⟩
        right
        have h3 := mapM_ok_forall _ _ _ h1
        generalize Num.int z :: rest = xs at h2 h3
        clear h1 hs hne
        induction h3 with
        | nil => simp
        | @cons x y xs ys hxy _ ih =>
          simp only [List.map_cons, List.cons.injEq] at h2
          intro u hu
          rcases List.mem_cons.mp hu with rfl | hu
          · rw [← h2.1]
            cases u with
            | int k =>
              simp only [toInt64] at hxy
              split_ifs at hxy with hk
              cases hxy
              exact ⟨k, rfl, by omega, by omega⟩
            | dbl d =>
              cases d with
              | fin q =>
                simp only [toInt64] at hxy
                split_ifs at hxy with hk
                cases hxy
                exact ⟨truncQ q, rfl, by omega, by omega⟩
              | pinf => simp [toInt64] at hxy
              | ninf => simp [toInt64] at hxy
              | nan => simp [toInt64] at hxy
          · exact ih h2.2 u hu
      · rintro (⟨d, hd⟩ | h)
        · simp at hd
        refine mapM_ok_val _ _ fun x hx => ?_
        obtain ⟨k, hk, h1, h2⟩ := h x hx
        refine ⟨.int k, ?_, hk.symm⟩
        have hr : -(2 ^ 63) ≤ k ∧ k < 2 ^ 63 := by constructor <;> omega
        cases x with
        | int w =>
          simp only [Num.val, Dbl.fin.injEq, Int.cast_inj] at hk
          subst hk
          simp only [toInt64, hr, and_self, if_true]
        | dbl d =>
          simp only [Num.val] at hk
          subst hk
          have ht : truncQ (k : ℚ) = k := by unfold truncQ; split_ifs <;> simp
          simp only [toInt64, ht, hr, and_self, if_true]

/-- An array that starts with the integer 1: right with the float 2.0, wrong with the float 0.5. -/
example : (∃ l, npVectorizeNum [.int 1, .dbl (.fin 2)] = .ok l ∧ l.map Num.val = [.fin 1, .fin 2]) ∧
    ¬ ∃ l, npVectorizeNum [.int 1, .dbl (.fin (1/2))] = .ok l ∧
      l.map Num.val = ([.int 1, .dbl (.fin (1/2))] : List Num).map Num.val := by
  constructor
  · obtain ⟨l, h1, h2⟩ := (C63_view_iff [.int 1, .dbl (.fin 2)] (by simp) (by simp [Num.IntsLe])).mpr
      (.inr (by
        intro x hx
        simp only [List.mem_cons, List.not_mem_nil, or_false] at hx
        rcases hx with rfl | rfl
        · exact ⟨1, by simp [Num.val], by norm_num, by norm_num⟩
        · exact ⟨2, by simp [Num.val], by norm_num, by norm_num⟩))
    exact ⟨l, h1, by rw [h2]; simp [Num.val]⟩
  · rw [C63_view_iff _ (by simp) (by simp [Num.IntsLe])]
    rintro (⟨d, hd⟩ | h)
    · simp at hd
    · obtain ⟨z, hz, _⟩ := h (.dbl (.fin (1/2))) (by simp)
      simp only [Num.val, Dbl.fin.injEq] at hz
      have h2 : ((1 : ℤ) : ℚ) = ((2 * z : ℤ) : ℚ) := by push_cast; rw [← hz]; norm_num
      have := Int.cast_inj.mp h2
      omega

/-- Both views of an array hold the stored endpoints. -/
def ViewsRight (A : List FIv) : Prop :=
  (∃ l, arrA A = .ok l ∧ l.map Num.val = A.map fun X => X.a.val) ∧
  (∃ l, arrB A = .ok l ∧ l.map Num.val = A.map fun X => X.b.val)

/-- C63, exact condition for arrays: both views hold the stored endpoints exactly when each of the two lists of
endpoints starts with a float or has integer values only. -/
theorem C63_views_iff (A : List FIv) (hne : A ≠ [])
    (hs : ∀ X ∈ A, X.a.IntsLe (2 ^ 53) ∧ X.b.IntsLe (2 ^ 53)) :
    ViewsRight A ↔
      ((∃ d, (A.map FIv.a).head? = some (.dbl d)) ∨
        ∀ X ∈ A, ∃ z : ℤ, X.a.val = .fin z ∧ -9223372036854775808 ≤ z ∧ z ≤ 9223372036854775807) ∧
      ((∃ d, (A.map FIv.b).head? = some (.dbl d)) ∨
        ∀ X ∈ A, ∃ z : ℤ, X.b.val = .fin z ∧ -9223372036854775808 ≤ z ∧ z ≤ 9223372036854775807) := by
  have key : ∀ f : FIv → Num, (∀ X ∈ A, (f X).IntsLe (2 ^ 53)) →
      ((∃ l, npVectorizeNum (A.map f) = .ok l ∧ l.map Num.val = A.map fun X => (f X).val) ↔
      ((∃ d, (A.map f).head? = some (.dbl d)) ∨
        ∀ X ∈ A, ∃ z : ℤ, (f X).val = .fin z ∧ -9223372036854775808 ≤ z ∧ z ≤ 9223372036854775807)) := by
    intro f hf
    have h := C63_view_iff (A.map f) (by simpa using hne) (by
      intro x hx
      obtain ⟨Y, hY, rfl⟩ := List.mem_map.mp hx
      exact hf Y hY)
    rw [List.map_map] at h
    rw [show (fun X => (f X).val) = Num.val ∘ f from rfl, h]
    simp
  exact and_congr (key FIv.a fun X hX => (hs X hX).1) (key FIv.b fun X hX => (hs X hX).2)

/-! ## Arrays with endpoints of one kind -/

/-- The array is not empty, its integer endpoints are at most `2^53` in modulus, and either the two endpoints of the
first element are floats or all endpoints are integers. -/
def PlainEnds (A : List FIv) : Prop :=
  A ≠ [] ∧ (∀ X ∈ A, X.a.IntsLe (2 ^ 53) ∧ X.b.IntsLe (2 ^ 53)) ∧
  ((∃ X c d, A.head? = some X ∧ X.a = .dbl c ∧ X.b = .dbl d) ∨ ∀ X ∈ A, ∃ z w, X.a = .int z ∧ X.b = .int w)

theorem PlainEnds.right {A : List FIv} (h : PlainEnds A) : ViewsRight A := by
  obtain ⟨hne, hs, h⟩ := h
  rw [C63_views_iff A hne hs]
  rcases h with ⟨X, c, d, h1, h2, h3⟩ | h
  · exact ⟨.inl ⟨c, by simp [h1, h2]⟩, .inl ⟨d, by simp [h1, h3]⟩⟩
  · refine ⟨.inr fun X hX => ?_, .inr fun X hX => ?_⟩
    · obtain ⟨z, w, h1, h2⟩ := h X hX
      have h3 : |z| ≤ 2 ^ 53 := by have := (hs X hX).1; rwa [h1] at this
      rw [abs_le] at h3
      exact ⟨z, by rw [h1]; rfl, by omega, by omega⟩
    · obtain ⟨z, w, h1, h2⟩ := h X hX
      have h3 : |w| ≤ 2 ^ 53 := by have := (hs X hX).2; rwa [h2] at this
      rw [abs_le] at h3
      exact ⟨w, by rw [h2]; rfl, by omega, by omega⟩

/-- The same for a matrix. -/
def PlainMat (A : Fin m → Fin n → FIv) : Prop :=
  ∃ (hm : 0 < m) (hn : 0 < n), (∀ i j, (A i j).a.IntsLe (2 ^ 53) ∧ (A i j).b.IntsLe (2 ^ 53)) ∧
  ((∃ c d, (A ⟨0, hm⟩ ⟨0, hn⟩).a = .dbl c ∧ (A ⟨0, hm⟩ ⟨0, hn⟩).b = .dbl d) ∨
    ∀ i j, ∃ z w, (A i j).a = .int z ∧ (A i j).b = .int w)

theorem PlainMat.ends {A : Fin m → Fin n → FIv} (h : PlainMat A) : PlainEnds (rowMajor A) := by
  obtain ⟨hm, hn, hs, h⟩ := h
  have h0 : 0 < m * n := Nat.mul_pos hm hn
  have hmem : ∀ X ∈ rowMajor A, ∃ i j, A i j = X := by
    intro X hX
    obtain ⟨k, rfl⟩ := (List.mem_ofFn' _ _).mp hX
    exact ⟨_, _, rfl⟩
  refine ⟨?_, ?_, ?_⟩
  · intro he
    have := congrArg List.length he
    simp only [rowMajor, List.length_ofFn, List.length_nil] at this
    omega
  · intro X hX
    obtain ⟨i, j, rfl⟩ := hmem X hX
    exact hs i j
  · rcases h with ⟨c, d, h1, h2⟩ | h
    · refine .inl ⟨A ⟨0, hm⟩ ⟨0, hn⟩, c, d, ?_, h1, h2⟩
      rw [List.head?_eq_getElem?, rowMajor, List.getElem?_ofFn, dif_pos h0]
      have e1 : Fin.divNat (⟨0, h0⟩ : Fin (m * n)) = ⟨0, hm⟩ := Fin.ext (by simp [Fin.divNat])
      have e2 : Fin.modNat (⟨0, h0⟩ : Fin (m * n)) = ⟨0, hn⟩ := Fin.ext (by simp [Fin.modNat])
      rw [e1, e2]
    · refine .inr fun X hX => ?_
      obtain ⟨i, j, rfl⟩ := hmem X hX
      exact h i j

theorem PlainMat.dual {A : Fin m → Fin n → FIv} (h : PlainMat A) (ort : Fin n → Bool) :
    PlainMat (orthDualF A ort) := by
  obtain ⟨hm, hn, hs, h⟩ := h
  refine ⟨hm, hn, fun i j => ?_, ?_⟩
  · unfold orthDualF
    split_ifs
    exacts [hs i j, ⟨(hs i j).2, (hs i j).1⟩]
  · rcases h with ⟨c, d, h1, h2⟩ | h
    · left
      unfold orthDualF
      split_ifs
      exacts [⟨c, d, h1, h2⟩, ⟨d, c, h2, h1⟩]
    · right
      intro i j
      obtain ⟨z, w, h1, h2⟩ := h i j
      unfold orthDualF
      split_ifs
      exacts [⟨z, w, h1, h2⟩, ⟨w, z, h2, h1⟩]

theorem numRat_val {p q : Num} (h : p.val = q.val) : numRat p = numRat q := by
  have e : ∀ p : Num, numRat p = numRat (.dbl p.val) := by rintro (z | d) <;> rfl
  rw [e p, e q, h]

/-- The endpoints of an interval object as an exact interval, without its class. -/
def endsIv (X : FIv) : Iv ℚ := ⟨.classical, numRat X.a, numRat X.b⟩

theorem map_numRat (l : List Num) (A : List FIv) (f : FIv → Num) (h : l.map Num.val = A.map fun X => (f X).val) :
    l.map numRat = A.map fun X => numRat (f X) := by
  induction l generalizing A with
  | nil => cases A with
    | nil => rfl
    | cons X A => simp at h
  | cons p l ih => cases A with
    | nil => simp at h
    | cons X A =>
      simp only [List.map_cons, List.cons.injEq] at h ⊢
      exact ⟨numRat_val h.1, ih A h.2⟩

theorem viewVec_right {X : List FIv} (h : ViewsRight X) : viewVec X = .ok (X.map endsIv) := by
  obtain ⟨⟨la, h1, h2⟩, ⟨lb, h3, h4⟩⟩ := h
  rw [viewVec, h1, h3]
  dsimp only
  have e1 := map_numRat la X FIv.a h2
  have e2 := map_numRat lb X FIv.b h4
  congr 1
  have : List.zipWith (fun p q => (⟨.classical, numRat p, numRat q⟩ : Iv ℚ)) la lb =
      List.zipWith (fun p q => (⟨.classical, p, q⟩ : Iv ℚ)) (la.map numRat) (lb.map numRat) := by
    rw [List.zipWith_map]
  rw [this, e1, e2]
  clear this e1 e2 h1 h2 h3 h4
  induction X with
  | nil => rfl
  | cons Y X ih => simp only [List.map_cons, List.zipWith_cons_cons, ih]; rfl

theorem viewFin_right {b : Fin m → FIv} (h : ViewsRight (List.ofFn b)) :
    viewFin b = .ok fun i => endsIv (b i) := by
  obtain ⟨⟨la, h1, h2⟩, ⟨lb, h3, h4⟩⟩ := h
  rw [viewFin, h1, h3]
  dsimp only
  congr 1
  have key : ∀ (l : List Num) (f : FIv → Num), l.map Num.val = (List.ofFn b).map (fun X => (f X).val) →
      ∀ i : Fin m, numRat (l.getD i (.int 0)) = numRat (f (b i)) := by
    intro l f hl i
    have hlen : l.length = m := by simpa using congrArg List.length hl
    have h5 := congrArg (fun l => l[(i : ℕ)]?) hl
    simp only [List.getElem?_map, List.getElem?_ofFn, i.isLt, dif_pos, Option.map_some, Fin.eta] at h5
    rw [List.getElem?_eq_getElem (by omega)] at h5
    simp only [Option.map_some, Option.some.injEq] at h5
    rw [List.getD_eq_getElem?_getD, List.getElem?_eq_getElem (by omega), Option.getD_some]
    exact numRat_val h5
  funext i
  rw [endsIv, key la FIv.a h2 i, key lb FIv.b h4 i]

theorem viewMatIv_right {A : Fin m → Fin n → FIv} (h : ViewsRight (rowMajor A)) :
    viewMatIv A = .ok fun i j => endsIv (A i j) := by
  obtain ⟨⟨la, h1, h2⟩, ⟨lb, h3, h4⟩⟩ := h
  rw [viewMatIv, h1, h3]
  dsimp only
  have key : ∀ (l : List Num) (f : FIv → Num), l.map Num.val = (rowMajor A).map (fun X => (f X).val) →
      ∀ i j, (viewMat l i j : ℚ) = numRat (f (A i j)) := by
    intro l f hl i j
    rw [viewMat]
    apply numRat_val
    have hlen : l.length = m * n := by simpa [rowMajor] using congrArg List.length hl
    have hlt : n * (i : ℕ) + j < m * n := by
      have hi := i.isLt
      have hj := j.isLt
      calc n * (i : ℕ) + j < n * i + n := by omega
        _ = n * (i + 1) := by ring
        _ ≤ n * m := Nat.mul_le_mul_left _ hi
        _ = m * n := Nat.mul_comm _ _
    have h5 := congrArg (fun l => l[n * (i : ℕ) + j]?) hl
    simp only [List.getElem?_map, rowMajor, List.getElem?_ofFn, hlt, dif_pos, Option.map_some] at h5
    rw [List.getElem?_eq_getElem (by omega)] at h5
    simp only [Option.map_some, Option.some.injEq] at h5
    rw [List.getD_eq_getElem?_getD, List.getElem?_eq_getElem (by omega), Option.getD_some, h5]
    have hn : 0 < n := j.pos
    have e1 : Fin.divNat ⟨n * (i : ℕ) + j, hlt⟩ = i := Fin.ext (by
      simp only [Fin.divNat]
      rw [Nat.mul_add_div hn, Nat.div_eq_of_lt j.isLt, Nat.add_zero])
    have e2 : Fin.modNat ⟨n * (i : ℕ) + j, hlt⟩ = j := Fin.ext (by
      simp only [Fin.modNat]
      rw [Nat.mul_add_mod, Nat.mod_eq_of_lt j.isLt])
    rw [e1, e2]
  congr 1
  funext i j
  rw [endsIv, key la FIv.a h2 i j, key lb FIv.b h4 i j]

/-- The first row of the matrix of `C63_shary_views`: `[1, 2]` with integer endpoints, then `[-0.75, 0.5]`. -/
def sharyRow : List FIv :=
  [⟨.classical, .int 1, .int 2⟩, ⟨.classical, .dbl (.fin (-3/4)), .dbl (.fin (1/2))⟩]

/-- `[1, 2]` with integer endpoints, then the point 0. -/
def sharyTrunc : List FIv := [⟨.classical, .int 1, .int 2⟩, ⟨.classical, .int 0, .int 0⟩]

theorem sharyRow_view : viewVec sharyRow = .ok [⟨.classical, 1, 2⟩, ⟨.classical, 0, 0⟩] ∧
    viewVec sharyTrunc = .ok [⟨.classical, 1, 2⟩, ⟨.classical, 0, 0⟩] := by
  constructor <;> decide +kernel

/-! ## C27 -/

/-- C27, full statement for interval objects with finite endpoints: the rows of `X.vertex` are the vectors of stored
endpoints. -/
def C27_statement : Prop :=
  ∀ X : List FIv, X ≠ [] → (∀ Y ∈ X, Y.Finite) → (∀ Y ∈ X, Y.a.IntsLe (2 ^ 53) ∧ Y.b.IntsLe (2 ^ 53)) →
    ∃ rows, vertexF X = .ok rows ∧ rows.length = 2 ^ X.length ∧
      ∀ v, v ∈ rows ↔ List.Forall₂ (fun (x : ℚ) (Y : FIv) => x = numRat Y.a ∨ x = numRat Y.b) v X

/-- C27, partial: the vertices are right when the views are (`C63_views_iff` says when).
Missing: arrays that start with an integer endpoint and contain a float that is not an integer, where the property
fails. -/
theorem C27_objects_partial (X : List FIv) (hne : X ≠ []) (h : ViewsRight X) :
    ∃ rows, vertexF X = .ok rows ∧ rows.length = 2 ^ X.length ∧
      ∀ v, v ∈ rows ↔ List.Forall₂ (fun (x : ℚ) (Y : FIv) => x = numRat Y.a ∨ x = numRat Y.b) v X := by
  obtain ⟨rows, h1, h2, h3⟩ := C27_vertex (X.map endsIv) (by simpa using hne)
  refine ⟨rows, by rw [vertexF, viewVec_right h]; exact h1, by simpa using h2, fun v => ?_⟩
  rw [h3, List.forall₂_map_right_iff]
  rfl

/-- C27 is false of the code: the four vertices computed for the box `[1, 2] × [-0.75, 0.5]` with integer endpoints in
the first coordinate are `(1, 0)`, `(1, 0)`, `(2, 0)`, `(2, 0)`. -/
theorem C27_objects_false : vertexF sharyRow = .ok [[1, 0], [1, 0], [2, 0], [2, 0]] ∧ ¬ C27_statement := by
  have hv : vertexF sharyRow = .ok [[1, 0], [1, 0], [2, 0], [2, 0]] := by decide +kernel
  refine ⟨hv, fun h => ?_⟩
  obtain ⟨rows, h1, _, h3⟩ := h sharyRow (by simp [sharyRow]) (by simp [sharyRow, FIv.Finite, Num.val]) (by simp [sharyRow, Num.IntsLe])
  rw [hv] at h1
  cases h1
  have := (h3 [1, 0]).mp (by simp)
  rw [sharyRow, List.forall₂_cons, List.forall₂_cons] at this
  norm_num [numRat] at this

example : ∃ rows, vertexF [⟨.classical, .dbl (.fin 1), .dbl (.fin 2)⟩, ⟨.classical, .dbl (.fin (-3/4)), .int 1⟩] =
    .ok rows ∧ [2, -3/4] ∈ rows := by
  obtain ⟨rows, h1, _, h3⟩ := C27_objects_partial
    [⟨.classical, .dbl (.fin 1), .dbl (.fin 2)⟩, ⟨.classical, .dbl (.fin (-3/4)), .int 1⟩] (by simp)
    (PlainEnds.right ⟨by simp, by simp [Num.IntsLe], .inl ⟨_, 1 |> Dbl.fin, 2 |> Dbl.fin, rfl, rfl, rfl⟩⟩)
  exact ⟨rows, h1, (h3 _).mpr (by simp [numRat])⟩

/-! ## C24 -/

/-- C24, full statement for vectors of interval objects: `dist` is the largest componentwise distance of the stored
intervals. -/
def C24_statement : Prop :=
  ∀ (n : ℕ) (x y : Fin (n + 1) → FIv), (∀ i, (x i).Finite ∧ (y i).Finite) → (∀ i, (x i).a.IntsLe (2 ^ 53) ∧ (x i).b.IntsLe (2 ^ 53)) →
    (∀ i, (y i).a.IntsLe (2 ^ 53) ∧ (y i).b.IntsLe (2 ^ 53)) →
    ∃ d, distVecF (List.ofFn x) (List.ofFn y) = .ok d ∧
      (∀ i, max |numRat (x i).a - numRat (y i).a| |numRat (x i).b - numRat (y i).b| ≤ d) ∧
      (∃ i, max |numRat (x i).a - numRat (y i).a| |numRat (x i).b - numRat (y i).b| = d)

theorem distVecF_right {x y : List FIv} (hx : ViewsRight x) (hy : ViewsRight y) :
    distVecF x y = distVec (x.map endsIv) (y.map endsIv) := by
  rw [distVecF, viewVec_right hx, viewVec_right hy]

/-- C24, partial: `dist` of vectors is the largest componentwise distance, a metric, when the views of all the vectors
are right (`C63_views_iff` says when).
Missing: vectors that start with an integer endpoint and contain a float that is not an integer, where the property
fails. -/
theorem C24_objects_partial (n : ℕ) (x y z : Fin (n + 1) → FIv) (hx : ViewsRight (List.ofFn x))
    (hy : ViewsRight (List.ofFn y)) (hz : ViewsRight (List.ofFn z)) :
    ∃ dxy dyz dxz dyx, distVecF (List.ofFn x) (List.ofFn y) = .ok dxy ∧
      distVecF (List.ofFn y) (List.ofFn z) = .ok dyz ∧ distVecF (List.ofFn x) (List.ofFn z) = .ok dxz ∧
      distVecF (List.ofFn y) (List.ofFn x) = .ok dyx ∧
      (∀ i, max |numRat (x i).a - numRat (y i).a| |numRat (x i).b - numRat (y i).b| ≤ dxy) ∧
      (∃ i, max |numRat (x i).a - numRat (y i).a| |numRat (x i).b - numRat (y i).b| = dxy) ∧
      0 ≤ dxy ∧ dxy = dyx ∧
      (dxy = 0 ↔ ∀ i, numRat (x i).a = numRat (y i).a ∧ numRat (x i).b = numRat (y i).b) ∧ dxz ≤ dxy + dyz := by
  rw [distVecF_right hx hy, distVecF_right hy hz, distVecF_right hx hz, distVecF_right hy hx]
  simp only [List.map_ofFn]
  exact C24_distVec_metric n (endsIv ∘ x) (endsIv ∘ y) (endsIv ∘ z)

/-- C24 is false of the code for vectors mixing integer and float endpoints: the distance between two different
vectors is 0. -/
theorem C24_objects_false : distVecF sharyRow sharyTrunc = .ok 0 ∧ ¬ C24_statement := by
  have hd : distVecF sharyRow sharyTrunc = .ok 0 := by decide +kernel
  refine ⟨hd, fun h => ?_⟩
  obtain ⟨d, h1, h2, _⟩ := h 1 ![⟨.classical, .int 1, .int 2⟩, ⟨.classical, .dbl (.fin (-3/4)), .dbl (.fin (1/2))⟩]
    ![⟨.classical, .int 1, .int 2⟩, ⟨.classical, .int 0, .int 0⟩]
    (by intro i; fin_cases i <;> simp [FIv.Finite, Num.val]) (by intro i; fin_cases i <;> simp [Num.IntsLe])
    (by intro i; fin_cases i <;> simp [Num.IntsLe])
  have e1 : List.ofFn ![(⟨.classical, .int 1, .int 2⟩ : FIv), ⟨.classical, .dbl (.fin (-3/4)), .dbl (.fin (1/2))⟩] =
    sharyRow := rfl
  have e2 : List.ofFn ![(⟨.classical, .int 1, .int 2⟩ : FIv), ⟨.classical, .int 0, .int 0⟩] = sharyTrunc := rfl
  rw [e1, e2, hd] at h1
  cases h1
  have := h2 1
  norm_num [numRat] at this

example : ∃ d, distVecF [⟨.classical, .dbl (.fin 1), .dbl (.fin 2)⟩, ⟨.classical, .dbl (.fin (-3/4)), .dbl (.fin (1/2))⟩]
    [⟨.classical, .int 1, .int 2⟩, ⟨.classical, .int 0, .int 0⟩] = .ok d ∧ d = 3/4 := ⟨3/4, by decide +kernel, rfl⟩

/-! ## C59 -/

/-- C59 is false of the code for vectors mixing integer and float endpoints: `subset` answers True although
`[-0.75, 0.5]` is no subset of the point 0. -/
theorem C59_objects_false : inclF subset sharyRow sharyTrunc = .ok true ∧
    inclF contain sharyRow sharyTrunc = .ok [true, true] ∧
    ¬ (numRat (.int 0) ≤ numRat (.dbl (.fin (-3/4)))) := by
  refine ⟨by decide +kernel, by decide +kernel, ?_⟩
  norm_num [numRat]

/-- C59, partial, for interval objects: the helpers are right when the views are. -/
theorem C59_objects_partial (n : ℕ) (A B : Fin n → FIv) (hA : ∀ i, numRat (A i).a ≤ numRat (A i).b)
    (vA : ViewsRight (List.ofFn A)) (vB : ViewsRight (List.ofFn B)) :
    (∃ r, inclF subset (List.ofFn A) (List.ofFn B) = .ok r ∧
      (r = true ↔ ∀ i, ∀ t : ℚ, numRat (A i).a ≤ t → t ≤ numRat (A i).b → numRat (B i).a ≤ t ∧ t ≤ numRat (B i).b)) ∧
    (∃ r, inclF properSubset (List.ofFn A) (List.ofFn B) = .ok r ∧
      (r = true ↔ ∀ i, numRat (B i).a < numRat (A i).a ∧ numRat (A i).b < numRat (B i).b)) ∧
    (∃ r, inclF contain (List.ofFn A) (List.ofFn B) = .ok r ∧ ∀ i : Fin n, r[i]? = some true ↔
      ∀ t : ℚ, numRat (A i).a ≤ t → t ≤ numRat (A i).b → numRat (B i).a ≤ t ∧ t ≤ numRat (B i).b) := by
  have e : ∀ {α : Type} (rel : List (Iv ℚ) → List (Iv ℚ) → α), inclF rel (List.ofFn A) (List.ofFn B) =
      .ok (rel (List.ofFn (endsIv ∘ A)) (List.ofFn (endsIv ∘ B))) := by
    intro α rel
    rw [inclF, viewVec_right vA, viewVec_right vB]
    simp only [List.map_ofFn]
  obtain ⟨h1, _, h3, _, _, h6⟩ := C59_subset_partial n (endsIv ∘ A) (endsIv ∘ B) hA
  have hsub : ∀ i, Spec.Sub ((endsIv ∘ A) i) ((endsIv ∘ B) i) ↔ ∀ t : ℚ, numRat (A i).a ≤ t → t ≤ numRat (A i).b →
      numRat (B i).a ≤ t ∧ t ≤ numRat (B i).b := by
    intro i
    constructor
    · intro h t h1 h2; exact h t ⟨h1, h2⟩
    · intro h t ht; exact h t ht.1 ht.2
  refine ⟨⟨_, e _, ?_⟩, ⟨_, e _, h3⟩, ⟨_, e _, fun i => ?_⟩⟩
  · rw [h1]; exact forall_congr' hsub
  · rw [h6]; exact hsub i

/-! ## C43 -/

/-- The right-hand side `([1, 2], [-2, 2])`. -/
def sharyRhs : Fin 2 → FIv := fun i => if i = 0 then ⟨.classical, .int 1, .int 2⟩ else ⟨.classical, .int (-2), .int 2⟩

/-- The matrix `diag([1, 2], [1, 2])` which the views of `sharyMat` show. -/
def sharyDiag : Fin 2 → Fin 2 → Iv ℚ := fun i j => if i = j then ⟨.classical, 1, 2⟩ else ⟨.classical, 0, 0⟩

theorem shary_views : viewMatIv sharyMat = .ok sharyDiag ∧
    viewFin sharyRhs = .ok fun i => endsIv (sharyRhs i) := by
  constructor
  · have hrm : rowMajor sharyMat = shary2 := by decide +kernel
    rw [viewMatIv, hrm, C63_shary_views.1, C63_shary_views.2]
    dsimp only
    congr 1
    funext i j
    revert i j
    decide +kernel
  · refine viewFin_right (PlainEnds.right ⟨by simp, ?_, .inr ?_⟩)
    · intro X hX
      obtain ⟨i, rfl⟩ := (List.mem_ofFn' _ _).mp hX
      fin_cases i <;> simp [sharyRhs, Num.IntsLe]
    · intro X hX
      obtain ⟨i, rfl⟩ := (List.mem_ofFn' _ _).mp hX
      fin_cases i
      exacts [⟨1, 2, rfl, rfl⟩, ⟨-2, 2, rfl, rfl⟩]

/-- C43, full statement for interval objects: with an exact solver every interval returned has the smallest and the
largest value of its coordinate over the tolerable set of the stored system as endpoints. -/
def C43_statement : Prop :=
  ∀ (m n : ℕ) (lp : LpSolver ℚ (Fin m ⊕ Fin m ⊕ (Fin n ⊕ Fin n)) (Fin n ⊕ Fin n)), LpOK lp →
    ∀ (tolval : ℚ) (A : Fin m → Fin n → FIv) (b : Fin m → FIv) (nu : Option (Fin n)) (X : List (Iv ℚ)),
    (∀ i j, (A i j).Finite) → (∀ i, (b i).Finite) → (∀ i j, numRat (A i j).a ≤ numRat (A i j).b) → rohnTolF lp tolval A b nu = .ok X →
    List.Forall₂ (fun k Z => Ordinary Z ∧
      IsRange Z (fun t => ∃ x, Tolerable (fun i j => endsIv (A i j)) (fun i => endsIv (b i)) x ∧ x k = t))
      (rohnIdx nu) X

theorem rohnTolF_right (lp : LpSolver ℚ (Fin m ⊕ Fin m ⊕ (Fin n ⊕ Fin n)) (Fin n ⊕ Fin n)) (tolval : ℚ)
    (A : Fin m → Fin n → FIv) (b : Fin m → FIv) (nu : Option (Fin n)) (vA : ViewsRight (rowMajor A))
    (vb : ViewsRight (List.ofFn b)) :
    rohnTolF lp tolval A b nu = rohnTol lp tolval (fun i j => endsIv (A i j)) (fun i => endsIv (b i)) nu := by
  rw [rohnTolF, viewMatIv_right vA, viewFin_right vb]
  dsimp only
  rw [rohnTol]
  split_ifs <;> rfl

/-- C43, partial: for interval objects whose views are right.
Missing: matrices that start with an integer endpoint and contain a float that is not an integer, where the property
fails. -/
theorem C43_objects_partial (lp : LpSolver ℚ (Fin m ⊕ Fin m ⊕ (Fin n ⊕ Fin n)) (Fin n ⊕ Fin n)) (hlp : LpOK lp)
    (tolval : ℚ) (A : Fin m → Fin n → FIv) (b : Fin m → FIv) (nu : Option (Fin n)) (X : List (Iv ℚ))
    (hA : ∀ i j, numRat (A i j).a ≤ numRat (A i j).b) (vA : ViewsRight (rowMajor A))
    (vb : ViewsRight (List.ofFn b)) (h : rohnTolF lp tolval A b nu = .ok X) :
    List.Forall₂ (fun k Z => Ordinary Z ∧
      IsRange Z (fun t => ∃ x, Tolerable (fun i j => endsIv (A i j)) (fun i => endsIv (b i)) x ∧ x k = t))
      (rohnIdx nu) X := by
  rw [rohnTolF_right lp tolval A b nu vA vb] at h
  exact C43_rohn_tol lp hlp tolval _ _ (fun i j => ⟨rfl, hA i j⟩) nu X h

/-- Tolerable solutions of the diagonal system. -/
theorem sharyDiag_tolerable (x : Fin 2 → ℚ) : Tolerable sharyDiag (fun i => endsIv (sharyRhs i)) x ↔
    x 0 = 1 ∧ -1 ≤ x 1 ∧ x 1 ≤ 1 := by
  have hr : ∀ A' : Fin 2 → Fin 2 → ℚ, InMat A' sharyDiag ↔ (1 ≤ A' 0 0 ∧ A' 0 0 ≤ 2) ∧ A' 0 1 = 0 ∧ A' 1 0 = 0 ∧
      (1 ≤ A' 1 1 ∧ A' 1 1 ≤ 2) := by
    intro A'
    simp only [InMat, Fin.forall_fin_two, sharyDiag, Iv.mem_def]
    simp only [if_true, if_false, Fin.isValue, zero_ne_one, one_ne_zero]
    constructor
    · rintro ⟨⟨h1, h2⟩, h3, h4⟩
      exact ⟨h1, le_antisymm h2.2 h2.1, le_antisymm h3.2 h3.1, h4⟩
    · rintro ⟨h1, h2, h3, h4⟩
      exact ⟨⟨h1, h2.ge, h2.le⟩, ⟨h3.ge, h3.le⟩, h4⟩
  have hb : ∀ y : Fin 2 → ℚ, InVec y (fun i => endsIv (sharyRhs i)) ↔ (1 ≤ y 0 ∧ y 0 ≤ 2) ∧ (-2 ≤ y 1 ∧ y 1 ≤ 2) := by
    intro y
    simp only [InVec, Fin.forall_fin_two, Iv.mem_def, endsIv, sharyRhs]
    simp [numRat]
  constructor
  · intro h
    have h1 := (hb _).mp (h ![![1, 0], ![0, 1]] ((hr _).mpr (by norm_num)))
    have h2 := (hb _).mp (h ![![2, 0], ![0, 2]] ((hr _).mpr (by norm_num)))
    simp [Spec.apply, Fin.sum_univ_two] at h1 h2
    refine ⟨?_, ?_, ?_⟩ <;> linarith [h1.1.1, h1.1.2, h2.1.1, h2.1.2, h2.2.1, h2.2.2]
  · rintro ⟨h1, h2, h3⟩ A' hA'
    obtain ⟨⟨a1, a2⟩, a3, a4, a5, a6⟩ := (hr A').mp hA'
    rw [hb]
    simp only [Spec.apply, Fin.sum_univ_two, a3, a4, h1]
    refine ⟨⟨by linarith, by linarith⟩, ?_, ?_⟩ <;> nlinarith

/-- Every tolerable solution of the stored system has its second coordinate equal to zero. -/
theorem shary_tolerable (x : Fin 2 → ℚ)
    (h : Tolerable (fun i j => endsIv (sharyMat i j)) (fun i => endsIv (sharyRhs i)) x) : x 1 = 0 := by
  have key : ∀ p q : ℚ, 1 ≤ p → p ≤ 2 → -3/4 ≤ q → q ≤ 1/2 → 1 ≤ p * x 0 + q * x 1 ∧ p * x 0 + q * x 1 ≤ 2 := by
    intro p q h1 h2 h3 h4
    have hm : InMat ![![p, q], ![q, p]] (fun i j => endsIv (sharyMat i j)) := by
      intro i j
      rw [Iv.mem_def]
      fin_cases i <;> fin_cases j <;> norm_num [endsIv, sharyMat, numRat] <;> constructor <;> linarith
    have := (Iv.mem_def.1 (h _ hm 0))
    simpa [Spec.apply, Fin.sum_univ_two, endsIv, sharyRhs, numRat] using this
  have h1 := key 1 (-3/4) (by norm_num) (by norm_num) (by norm_num) (by norm_num)
  have h2 := key 1 (1/2) (by norm_num) (by norm_num) (by norm_num) (by norm_num)
  have h3 := key 2 (-3/4) (by norm_num) (by norm_num) (by norm_num) (by norm_num)
  have h4 := key 2 (1/2) (by norm_num) (by norm_num) (by norm_num) (by norm_num)
  linarith [h1.1, h1.2, h2.1, h2.2, h3.1, h3.2, h4.1, h4.2]

/-- C43 is false of the code: for the library's own test matrix and the right-hand side `([1, 2], [-2, 2])` any exact
solver that returns optimal points makes `Rohn` return the interval `[-1, 1]` for the second coordinate, although
all tolerable solutions have second coordinate 0. -/
theorem C43_objects_false :
    (∀ lp, LpOK lp → LpComplete lp → rohnTolF lp 0 sharyMat sharyRhs (some 1) = .ok [⟨.classical, -1, 1⟩]) ∧
    (∀ x, Tolerable (fun i j => endsIv (sharyMat i j)) (fun i => endsIv (sharyRhs i)) x → x 1 = 0) ∧
    ¬ C43_statement := by
  have hF : ∀ lp, rohnTolF lp 0 sharyMat sharyRhs (some 1) =
      rohnTol lp 0 sharyDiag (fun i => endsIv (sharyRhs i)) (some 1) := by
    intro lp
    rw [rohnTolF, if_neg (lt_irrefl _), shary_views.1, shary_views.2]
  have hO : ∀ i j, Ordinary (sharyDiag i j) := by
    intro i j; unfold Ordinary; revert i j; decide +kernel
  have main : ∀ lp, LpOK lp → LpComplete lp →
      rohnTolF lp 0 sharyMat sharyRhs (some 1) = .ok [⟨.classical, -1, 1⟩] := by
    intro lp h1 h2
    rw [hF]
    obtain ⟨X, hX⟩ := C43_rohn_tol_returns lp h2 0 le_rfl sharyDiag (fun i => endsIv (sharyRhs i)) hO (some 1)
      (by
        intro k
        refine ⟨![1, -1], (sharyDiag_tolerable _).mpr (by norm_num), fun y hy => ?_⟩
        obtain ⟨a1, a2, a3⟩ := (sharyDiag_tolerable y).mp hy
        fin_cases k
        exacts [a1.ge, a2])
      (by
        intro k
        refine ⟨![1, 1], (sharyDiag_tolerable _).mpr (by norm_num), fun y hy => ?_⟩
        obtain ⟨a1, a2, a3⟩ := (sharyDiag_tolerable y).mp hy
        fin_cases k
        exacts [a1.le, a3])
    have h3 := C43_rohn_tol lp h1 0 _ _ hO (some 1) X hX
    rw [hX]
    cases h3 with
    | @cons _ Z _ _ hZ h4 =>
      cases h4
      obtain ⟨⟨hc, _⟩, henc, ⟨x, hx, ex⟩, ⟨y, hy, ey⟩⟩ := hZ
      obtain ⟨_, x2, x3⟩ := (sharyDiag_tolerable x).mp hx
      obtain ⟨_, y2, y3⟩ := (sharyDiag_tolerable y).mp hy
      have l1 := Iv.mem_def.1 (henc (-1) ⟨![1, -1], (sharyDiag_tolerable _).mpr (by norm_num), rfl⟩)
      have l2 := Iv.mem_def.1 (henc 1 ⟨![1, 1], (sharyDiag_tolerable _).mpr (by norm_num), rfl⟩)
      cases Z with
      | mk c a b =>
        simp only at hc ex ey l1 l2
        have ea : a = -1 := le_antisymm l1.1 (ex ▸ x2)
        have eb : b = 1 := le_antisymm (ey ▸ y3) l2.2
        rw [hc, ea, eb]
  refine ⟨main, shary_tolerable, fun h => ?_⟩
  have h1 := h 2 2 _ (lpChoice_ok (K := ℚ) _ _) 0 sharyMat sharyRhs (some 1) _
    (by intro i j; fin_cases i <;> fin_cases j <;> simp [FIv.Finite, Num.val, sharyMat])
    (by intro i; fin_cases i <;> simp [FIv.Finite, Num.val, sharyRhs]) (by decide +kernel)
    (main _ (lpChoice_ok _ _) (lpChoice_complete _ _))
  cases h1 with
  | cons hZ _ =>
    obtain ⟨x, hx, ex⟩ := hZ.2.2.1
    have := shary_tolerable x hx
    rw [ex] at this
    norm_num at this

/-! ## C48 -/

theorem orthantRows_system (shift : ℚ → ℚ) (A : Fin m → Fin n → Iv ℚ) (b : Fin m → Iv ℚ) (ort : Fin n → Bool)
    (cons : Consistency) : orthantRows shift A b ort cons = orthantSystem shift (orthDual A ort) b ort cons := by
  cases cons <;> rfl

theorem orthantSystem_congr (shift : ℚ → ℚ) (s t : Fin m → Fin n → Iv ℚ) (b : Fin m → Iv ℚ) (ort : Fin n → Bool)
    (cons : Consistency) (h : ∀ i k, (s i k).a = (t i k).a ∧ (s i k).b = (t i k).b) :
    orthantSystem shift s b ort cons = orthantSystem shift t b ort cons := by
  cases cons <;> simp only [orthantSystem, fun i k => (h i k).1, fun i k => (h i k).2]

/-- C48 (objects), partial: for matrices and right-hand sides with endpoints of one kind the system built for an orthant
is the one of the stored intervals, so that `C48_plane` describes it.
Missing: matrices that start with an integer endpoint and contain a float that is not an integer, where the property
fails. -/
theorem C48_objects_partial (shift : ℚ → ℚ) (A : Fin m → Fin n → FIv) (b : Fin m → FIv) (ort : Fin n → Bool)
    (cons : Consistency) (hA : PlainMat A) (hb : PlainEnds (List.ofFn b)) :
    orthantRowsF shift A b ort cons =
      orthantRows shift (fun i k => endsIv (A i k)) (fun i => endsIv (b i)) ort cons := by
  have key : orthantSystem shift (fun i k => endsIv (orthDualF A ort i k)) (fun i => endsIv (b i)) ort cons =
      orthantRows shift (fun i k => endsIv (A i k)) (fun i => endsIv (b i)) ort cons := by
    rw [orthantRows_system]
    refine orthantSystem_congr _ _ _ _ _ _ fun i k => ?_
    rw [(orthDual_ends _ _ _ _).1, (orthDual_ends _ _ _ _).2]
    unfold orthDualF
    split_ifs <;> exact ⟨rfl, rfl⟩
  cases cons with
  | other => rfl
  | uni => simp only [orthantRowsF, viewMatIv_right (hA.dual ort).ends.right, viewFin_right hb.right]; exact key
  | tol => simp only [orthantRowsF, viewMatIv_right (hA.dual ort).ends.right, viewFin_right hb.right]; exact key

/-- C48 is false of the code: for the library's own test matrix and the right-hand side `([1, 2], [-2, 2])` the point
`(1/4, 1)` is a united solution in the positive quadrant and violates the system built for it. -/
theorem C48_objects_false :
    (∃ S, orthantRowsF id sharyMat sharyRhs (fun _ => true) .uni = .ok S ∧ ¬ Satisfies S ![1/4, 1]) ∧
    InOrthant (fun _ => true) (![1/4, 1] : Fin 2 → ℚ) ∧
    United (fun i j => endsIv (sharyMat i j)) (fun i => endsIv (sharyRhs i)) (![1/4, 1] : Fin 2 → ℚ) := by
  refine ⟨?_, ?_, ?_⟩
  · have hd : orthDualF sharyMat (fun _ => true) = sharyMat := rfl
    refine ⟨_, by simp only [orthantRowsF, hd, shary_views.1, shary_views.2]; rfl, fun h => ?_⟩
    have := h (fun k => -(-(sharyDiag 0 k).b), -id (-(endsIv (sharyRhs 0)).a)) (by simp [List.ofFn_succ])
    norm_num [Fin.sum_univ_two, sharyDiag, endsIv, sharyRhs, numRat] at this
  · intro k; fin_cases k <;> norm_num
  · refine ⟨![![2, 1/2], ![0, 1]], ?_, ![1, 1], ?_, ?_⟩
    · intro i j
      rw [Iv.mem_def]
      fin_cases i <;> fin_cases j <;> norm_num [endsIv, sharyMat, numRat]
    · intro i
      rw [Iv.mem_def]
      fin_cases i <;> norm_num [endsIv, sharyRhs, numRat]
    · intro i
      fin_cases i <;> norm_num [Spec.apply, Fin.sum_univ_two]

/-- A system whose first element has float endpoints meets the hypotheses, whatever the other endpoints are. -/
example : PlainMat (fun i j => if i = j then ⟨.classical, .dbl (.fin (1/2)), .dbl (.fin 2)⟩
    else ⟨.classical, .int 0, .dbl (.fin 1)⟩ : Fin 2 → Fin 2 → FIv) :=
  ⟨by norm_num, by norm_num, by intro i j; fin_cases i <;> fin_cases j <;> simp [Num.IntsLe], .inl ⟨_, _, rfl, rfl⟩⟩

/-! ## C76 -/

/-- C76, full statement for interval objects. -/
def C76_statement : Prop :=
  ∀ (m n : ℕ) (A : Fin m → Fin n → FIv) (b : Fin m → FIv) (w : Fin m → ℚ) (norm : NormArg) (x z g g' : Fin n → ℚ)
    (f f' : ℚ), 0 < n → (∀ i j, (A i j).Finite) → (∀ i, (b i).Finite) → (∀ i j, Ordinary (ivRat (A i j))) →
    (∀ i, 0 ≤ w i) → wilsTolF A b w norm x = .ok (f, g) → wilsTolF A b w norm z = .ok (f', g') →
    f + ∑ j, g j * (z j - x j) ≤ f'

/-- C76, partial: for training matrices whose views are right (`C63_views_iff` says when).
Missing: matrices that start with an integer endpoint and contain a float that is not an integer, where the property
fails. -/
theorem C76_objects_partial (hn : 0 < n) (A : Fin m → Fin n → FIv) (b : Fin m → FIv) (w : Fin m → ℚ) (norm : NormArg)
    (x z g g' : Fin n → ℚ) (f f' : ℚ) (hA : ∀ i j, Ordinary (ivRat (A i j))) (hw : ∀ i, 0 ≤ w i)
    (v : ViewsRight (rowMajor A)) (h : wilsTolF A b w norm x = .ok (f, g))
    (h' : wilsTolF A b w norm z = .ok (f', g')) : f + ∑ j, g j * (z j - x j) ≤ f' := by
  rw [wilsTolF, C32_views_right A b w v.1 v.2] at h h'
  exact C76_tol_subgradient hn _ _ w hA hw norm x z g g' f f' h h'

/-- The right-hand side of the counterexample, `([0, 10], [-100, 100])`. -/
def wilsRhs : Fin 2 → FIv := fun i => if i = 0 then ⟨.classical, .int 0, .int 10⟩ else ⟨.classical, .int (-100), .int 100⟩

/-- C76 is false of the code: for the library's own test matrix the vector `(-1, 0)` handed to the optimiser at `(1, 1)`
is no subgradient, since the endpoint views are truncated to integers. -/
theorem C76_objects_false : ¬ C76_statement := by
  intro h
  have hO : ∀ i j, Ordinary (ivRat (sharyMat i j)) := by
    intro i j; unfold Ordinary; revert i j; decide +kernel
  have k1 : (wilsTolF sharyMat wilsRhs (fun _ => 1) .inf (fun _ => 1)).map (fun r => (r.1, r.2 0, r.2 1)) =
      .ok (-1/4, -1, 0) := by decide +kernel
  have k2 : (wilsTolF sharyMat wilsRhs (fun _ => 1) .inf ![1, 0]).map (fun r => r.1) = .ok (-1) := by decide +kernel
  cases h1 : wilsTolF sharyMat wilsRhs (fun _ => 1) .inf (fun _ => 1) with
  | error e => rw [h1] at k1; cases k1
  | ok r =>
    cases h2 : wilsTolF sharyMat wilsRhs (fun _ => 1) .inf ![1, 0] with
    | error e => rw [h2] at k2; cases k2
    | ok r' =>
      rw [h1] at k1
      rw [h2] at k2
      simp only [Except.map, Except.ok.injEq, Prod.mk.injEq] at k1 k2
      have := h 2 2 sharyMat wilsRhs (fun _ => 1) .inf (fun _ => 1) ![1, 0] r.2 r'.2 r.1 r'.1 (by norm_num)
        (by intro i j; fin_cases i <;> fin_cases j <;> simp [FIv.Finite, Num.val, sharyMat])
        (by intro i; fin_cases i <;> simp [FIv.Finite, Num.val, wilsRhs]) hO (by simp) h1 h2
      rw [Fin.sum_univ_two, k1.1, k1.2.1, k1.2.2, k2] at this
      norm_num at this

/-! ## C100 -/

/-- C100, full statement for interval objects. -/
def C100_statement : Prop :=
  ∀ x y : List FIv, x ≠ [] → x.length = y.length → (∀ X ∈ x, X.Finite ∧ Ordinary (ivRat X)) →
    (∀ Y ∈ y, Y.Finite ∧ Ordinary (ivRat Y)) →
    ∃ ms, scatterF x y = .ok ms ∧ DrawsAll ms ((x.map endsIv).zip (y.map endsIv))

/-- C100, partial: for arrays whose views are right.
Missing: arrays that start with an integer endpoint and contain a float that is not an integer, where the property
fails. -/
theorem C100_objects_partial (x y : List FIv) (hne : x ≠ []) (hl : x.length = y.length)
    (hx : ∀ X ∈ x, numRat X.a ≤ numRat X.b) (hy : ∀ Y ∈ y, numRat Y.a ≤ numRat Y.b) (vx : ViewsRight x)
    (vy : ViewsRight y) : ∃ ms, scatterF x y = .ok ms ∧ DrawsAll ms ((x.map endsIv).zip (y.map endsIv)) := by
  have ord : ∀ l : List FIv, (∀ X ∈ l, numRat X.a ≤ numRat X.b) → ∀ Z ∈ l.map endsIv, Ordinary Z := by
    intro l h Z hZ
    obtain ⟨X, hX, rfl⟩ := List.mem_map.mp hZ
    exact ⟨rfl, h X hX⟩
  obtain ⟨ms, h1, h2⟩ := (C100_scatter (x.map endsIv) (y.map endsIv) (ord x hx) (ord y hy)).1 (by simpa using hne)
    (by simpa using hl)
  exact ⟨ms, by rw [scatterF, viewVec_right vx, viewVec_right vy]; exact h1, h2⟩

/-- C100 is false of the code: of the two boxes `[1, 2] × [0, 1]` and `[-0.75, 0.5] × [0, 1]` the second is drawn as a
segment of the axis. -/
theorem C100_objects_false : scatterF sharyRow [⟨.classical, .int 0, .int 1⟩, ⟨.classical, .int 0, .int 1⟩] =
      .ok [.outline [(0, 0), (0, 1), (0, 1), (0, 0)], .filled [(1, 0), (1, 1), (2, 1), (2, 0)]] ∧ ¬ C100_statement := by
  have hs : scatterF sharyRow [⟨.classical, .int 0, .int 1⟩, ⟨.classical, .int 0, .int 1⟩] =
      .ok [.outline [(0, 0), (0, 1), (0, 1), (0, 0)], .filled [(1, 0), (1, 1), (2, 1), (2, 0)]] := by decide +kernel
  refine ⟨hs, fun h => ?_⟩
  obtain ⟨ms, h1, h2⟩ := h sharyRow [⟨.classical, .int 0, .int 1⟩, ⟨.classical, .int 0, .int 1⟩] (by simp [sharyRow]) rfl
    (by simp [sharyRow, FIv.Finite, Num.val, Ordinary, ivRat, numRat]; norm_num)
    (by simp [FIv.Finite, Num.val, Ordinary, ivRat, numRat])
  rw [hs] at h1
  cases h1
  obtain ⟨qs, hp, hf⟩ := h2
  cases hf with
  | @cons _ q _ _ hq _ =>
    have hm := hp.subset (List.mem_cons_self)
    simp only [sharyRow, List.map_cons, List.map_nil, List.zip_cons_cons, List.zip_nil_right, List.mem_cons,
      List.not_mem_nil, or_false] at hm
    rcases hm with rfl | rfl <;> norm_num [Draws, endsIv, numRat] at hq

end IntvalPy
