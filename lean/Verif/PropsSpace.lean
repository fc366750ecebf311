import Verif.ModelBoundary3D
import Verif.PropsR2

/-!
# Faces of solution sets in space (C83 - C85): the change of variables
-/

set_option autoImplicit false
set_option linter.unusedSectionVars false

namespace IntvalPy

open Spec

variable {K : Type*} [Field K] [LinearOrder K] [FloorRing K] [IsStrictOrderedRing K]

/-- `x` satisfies all inequalities. -/
def Sat3 (S : List (Ineq3 K)) (x : V3 K) : Prop := ∀ r ∈ S, r.2 ≤ dot3 r.1 x

/-- The part of `P` on which the row `r` holds with equality. -/
def Face (P : V3 K → Prop) (r : Ineq3 K) (x : V3 K) : Prop := P x ∧ dot3 r.1 x = r.2

/-- `v` is not the middle of two other points of `P`. -/
def Extreme3 (P : V3 K → Prop) (v : V3 K) : Prop :=
  P v ∧ ∀ x y, P x → P y → x.1 + y.1 = 2 * v.1 → x.2.1 + y.2.1 = 2 * v.2.1 → x.2.2 + y.2.2 = 2 * v.2.2 → x = v

/-- The set `P` lies in some cube. -/
def BoundedSet3 (P : V3 K → Prop) : Prop := ∃ R, ∀ x, P x → |x.1| ≤ R ∧ |x.2.1| ≤ R ∧ |x.2.2| ≤ R

/-- `v - u`. -/
def sub3 (v u : V3 K) : V3 K := (v.1 - u.1, v.2.1 - u.2.1, v.2.2 - u.2.2)

/-- The set `F` (in a plane with normal `n`) lies to the right of the way from `u` to `v`, seen from the side to
which `n` points. -/
def Side3 (n : V3 K) (F : V3 K → Prop) (u v : V3 K) : Prop :=
  u ≠ v ∧ ∀ x, F x → dot3 n (cross3 (sub3 v u) (sub3 x u)) ≤ 0

/-- `C` lists the vertices of the plane set `F`: each once, and, if there are several, in order along the sides. -/
def FaceList (n : V3 K) (F : V3 K → Prop) (C : List (V3 K)) : Prop :=
  C.Nodup ∧ (∀ v, v ∈ C ↔ Extreme3 F v) ∧ (C.length ≠ 1 → (C ++ C.head?.toList).IsChain (Side3 n F))

/-! ## The new variables -/

theorem dot3_self_nonneg (a : V3 K) : 0 ≤ dot3 a a :=
  add_nonneg (add_nonneg (mul_self_nonneg _) (mul_self_nonneg _)) (mul_self_nonneg _)

theorem dot3_self_eq_zero {a : V3 K} (h : dot3 a a = 0) : a = (0, 0, 0) := by
  have h1 := mul_self_nonneg a.1
  have h2 := mul_self_nonneg a.2.1
  have h3 := mul_self_nonneg a.2.2
  simp only [dot3] at h
  exact Prod.ext (mul_self_eq_zero.1 (by linarith))
    (Prod.ext (mul_self_eq_zero.1 (by linarith)) (mul_self_eq_zero.1 (by linarith)))

theorem dot3_self_pos {a : V3 K} (h : dot3 a a ≠ 0) : 0 < dot3 a a := lt_of_le_of_ne (dot3_self_nonneg a) (Ne.symm h)

theorem dot3_comm (a x : V3 K) : dot3 a x = dot3 x a := by simp only [dot3]; ring

theorem dot3_first (a : V3 K) : dot3 a (cvFirst a) = 0 := by
  unfold cvFirst dot3
  split_ifs <;> simp <;> ring

theorem first_ne {a : V3 K} (h : dot3 a a ≠ 0) : dot3 (cvFirst a) (cvFirst a) ≠ 0 := by
  intro h0
  apply h
  have := dot3_self_eq_zero h0
  unfold cvFirst at this
  split_ifs at this with h1 h2
  · simp only [Prod.mk.injEq, neg_eq_zero] at this
    obtain ⟨-, e2, e3⟩ := this
    rw [e2, e3, abs_zero] at h1
    simp only [dot3, e2, e3, abs_nonpos_iff.1 h1.1]; ring
  · simp only [Prod.mk.injEq, neg_eq_zero] at this
    obtain ⟨e1, -, e3⟩ := this
    rw [e1, abs_zero] at h2
    simp only [dot3, e1, e3, abs_nonpos_iff.1 h2]; ring
  · simp only [Prod.mk.injEq, neg_eq_zero] at this
    obtain ⟨e1, e2, -⟩ := this
    refine absurd ⟨?_, ?_⟩ h1
    · rw [e2, abs_zero]; exact abs_nonneg _
    · rw [e2, abs_zero]; exact abs_nonneg _

theorem dot3_second (a : V3 K) : dot3 a (cvSecond a) = 0 := by
  simp only [cvSecond, cross3, dot3]; ring

theorem first_second (a : V3 K) : dot3 (cvFirst a) (cvSecond a) = 0 := by
  simp only [cvSecond, cross3, dot3]; ring

theorem second_self (a : V3 K) : dot3 (cvSecond a) (cvSecond a) = dot3 a a * dot3 (cvFirst a) (cvFirst a) := by
  have h := dot3_first a
  simp only [cvSecond, cross3, dot3] at h ⊢
  linear_combination (-(a.1 * (cvFirst a).1 + a.2.1 * (cvFirst a).2.1 + a.2.2 * (cvFirst a).2.2)) * h

theorem second_ne {a : V3 K} (h : dot3 a a ≠ 0) : dot3 (cvSecond a) (cvSecond a) ≠ 0 := by
  rw [second_self]; exact mul_ne_zero h (first_ne h)

theorem dot3_origin {r : Ineq3 K} (h : dot3 r.1 r.1 ≠ 0) : dot3 r.1 (cvOrigin r) = r.2 := by
  have : dot3 r.1 (cvOrigin r) = dot3 r.1 r.1 * r.2 / dot3 r.1 r.1 := by
    simp only [dot3, cvOrigin]; ring
  rw [this, mul_div_assoc, mul_div_cancel₀ _ h]

theorem dot3_point (s : V3 K) (r : Ineq3 K) (p : K × K) :
    dot3 s (cvPoint r p) = dot3 s (cvOrigin r) + dot3 s (cvFirst r.1) * p.1 + dot3 s (cvSecond r.1) * p.2 := by
  simp only [dot3, cvPoint]; ring

theorem point_on {r : Ineq3 K} (h : dot3 r.1 r.1 ≠ 0) (p : K × K) : dot3 r.1 (cvPoint r p) = r.2 := by
  rw [dot3_point, dot3_origin h, dot3_first, dot3_second, zero_mul, zero_mul, add_zero, add_zero]

/-- A row in the new variables. -/
theorem cvRow_iff (r s : Ineq3 K) (p : K × K) :
    (cvRow r s).2 ≤ dot2 (cvRow r s).1 p ↔ s.2 ≤ dot3 s.1 (cvPoint r p) := by
  rw [dot3_point]
  simp only [cvRow, dot2]
  constructor <;> intro h <;> linarith

theorem span_aux {a y z : V3 K} (ho : dot3 a y = 0) (h1 : dot3 z a = 0) (h2 : dot3 z y = 0)
    (h3 : dot3 z (cross3 a y) = 0) : dot3 a a * dot3 y y * z.1 = 0 ∧ dot3 a a * dot3 y y * z.2.1 = 0 ∧
      dot3 a a * dot3 y y * z.2.2 = 0 := by
  obtain ⟨a1, a2, a3⟩ := a
  obtain ⟨y1, y2, y3⟩ := y
  obtain ⟨z1, z2, z3⟩ := z
  simp only [dot3, cross3] at *
  refine ⟨?_, ?_, ?_⟩
  · linear_combination ((y1 * y1 + y2 * y2 + y3 * y3) * a1) * h1 + ((a1 * a1 + a2 * a2 + a3 * a3) * y1) * h2 +
      (a2 * y3 - a3 * y2) * h3 + ((a1 * y1 + a2 * y2 + a3 * y3) * z1 - (z1 * y1 + z2 * y2 + z3 * y3) * a1 -
        (z1 * a1 + z2 * a2 + z3 * a3) * y1) * ho
  · linear_combination ((y1 * y1 + y2 * y2 + y3 * y3) * a2) * h1 + ((a1 * a1 + a2 * a2 + a3 * a3) * y2) * h2 +
      (a3 * y1 - a1 * y3) * h3 + ((a1 * y1 + a2 * y2 + a3 * y3) * z2 - (z1 * y1 + z2 * y2 + z3 * y3) * a2 -
        (z1 * a1 + z2 * a2 + z3 * a3) * y2) * ho
  · linear_combination ((y1 * y1 + y2 * y2 + y3 * y3) * a3) * h1 + ((a1 * a1 + a2 * a2 + a3 * a3) * y3) * h2 +
      (a1 * y2 - a2 * y1) * h3 + ((a1 * y1 + a2 * y2 + a3 * y3) * z3 - (z1 * y1 + z2 * y2 + z3 * y3) * a3 -
        (z1 * a1 + z2 * a2 + z3 * a3) * y3) * ho

/-- Three pairwise orthogonal nonzero vectors span the space. -/
theorem span3 {a z : V3 K} (h : dot3 a a ≠ 0) (h1 : dot3 z a = 0) (h2 : dot3 z (cvFirst a) = 0)
    (h3 : dot3 z (cvSecond a) = 0) : z = (0, 0, 0) := by
  have hN : dot3 a a * dot3 (cvFirst a) (cvFirst a) ≠ 0 := mul_ne_zero h (first_ne h)
  obtain ⟨e1, e2, e3⟩ := span_aux (dot3_first a) h1 h2 h3
  exact Prod.ext ((mul_eq_zero.1 e1).resolve_left hN) (Prod.ext ((mul_eq_zero.1 e2).resolve_left hN)
    ((mul_eq_zero.1 e3).resolve_left hN))

/-- The new coordinates of a point. -/
def cvCoords (r : Ineq3 K) (x : V3 K) : K × K :=
  (dot3 (sub3 x (cvOrigin r)) (cvFirst r.1) / dot3 (cvFirst r.1) (cvFirst r.1),
    dot3 (sub3 x (cvOrigin r)) (cvSecond r.1) / dot3 (cvSecond r.1) (cvSecond r.1))

theorem dot3_sub (x y a : V3 K) : dot3 (sub3 x y) a = dot3 a x - dot3 a y := by
  simp only [dot3, sub3]; ring

theorem sub3_eq_zero {x y : V3 K} (h : sub3 x y = (0, 0, 0)) : x = y := by
  simp only [sub3, Prod.mk.injEq] at h
  exact Prod.ext (sub_eq_zero.1 h.1) (Prod.ext (sub_eq_zero.1 h.2.1) (sub_eq_zero.1 h.2.2))

theorem second_first (a : V3 K) : dot3 (cvSecond a) (cvFirst a) = 0 := by rw [dot3_comm, first_second]

/-- Every point of the plane of the row is reached. -/
theorem point_coords {r : Ineq3 K} (h : dot3 r.1 r.1 ≠ 0) {x : V3 K} (hx : dot3 r.1 x = r.2) :
    cvPoint r (cvCoords r x) = x := by
  refine (sub3_eq_zero (span3 h ?_ ?_ ?_)).symm
  · rw [dot3_sub, point_on h, hx, sub_self]
  · rw [dot3_sub, dot3_point, first_second, zero_mul, add_zero, cvCoords, mul_div_cancel₀ _ (first_ne h), dot3_sub]
    ring
  · rw [dot3_sub, dot3_point, second_first, zero_mul, add_zero, cvCoords, mul_div_cancel₀ _ (second_ne h), dot3_sub]
    ring

theorem coords_point {r : Ineq3 K} (h : dot3 r.1 r.1 ≠ 0) (p : K × K) : cvCoords r (cvPoint r p) = p := by
  unfold cvCoords
  rw [dot3_sub, dot3_sub, dot3_point, dot3_point, first_second, second_first, zero_mul, zero_mul, add_zero, add_zero,
    add_sub_cancel_left, add_sub_cancel_left, mul_div_cancel_left₀ _ (first_ne h),
    mul_div_cancel_left₀ _ (second_ne h)]

theorem point_inj {r : Ineq3 K} (h : dot3 r.1 r.1 ≠ 0) {p q : K × K} (he : cvPoint r p = cvPoint r q) : p = q := by
  rw [← coords_point h p, he, coords_point h]

/-- The face of a row in the new variables. -/
theorem face_iff {S : List (Ineq3 K)} {k : Nat} {r : Ineq3 K} (hk : S[k]? = some r) (h : dot3 r.1 r.1 ≠ 0)
    (p : K × K) : Sat2 ((S.eraseIdx k).map (cvRow r)) p ↔ Face (Sat3 S) r (cvPoint r p) := by
  constructor
  · intro hp
    refine ⟨fun s hs => ?_, point_on h p⟩
    by_cases hsr : s = r
    · rw [hsr, point_on h]
    · have hmem : s ∈ S.eraseIdx k := mem_eraseIdx_of_ne hk hs hsr
      exact (cvRow_iff r s p).1 (hp _ (List.mem_map_of_mem hmem))
  · rintro ⟨hs, -⟩ t ht
    obtain ⟨s, hs', rfl⟩ := List.mem_map.1 ht
    exact (cvRow_iff r s p).2 (hs s (List.mem_of_mem_eraseIdx hs'))

/-- Vertices of a face in the new variables. -/
theorem extreme_iff {r : Ineq3 K} (h : dot3 r.1 r.1 ≠ 0) {F : V3 K → Prop} (hF : ∀ x, F x → dot3 r.1 x = r.2)
    {Q : K × K → Prop} (hQ : ∀ p, Q p ↔ F (cvPoint r p)) (p : K × K) : Extreme Q p ↔ Extreme3 F (cvPoint r p) := by
  constructor
  · rintro ⟨h1, h2⟩
    refine ⟨(hQ p).1 h1, fun x y hx hy e1 e2 e3 => ?_⟩
    obtain ⟨u, rfl⟩ : ∃ u, cvPoint r u = x := ⟨_, point_coords h (hF x hx)⟩
    obtain ⟨v, rfl⟩ : ∃ v, cvPoint r v = y := ⟨_, point_coords h (hF y hy)⟩
    have key : ∀ a : V3 K, dot3 a (cvPoint r u) + dot3 a (cvPoint r v) = 2 * dot3 a (cvPoint r p) := by
      intro a
      simp only [dot3]
      linear_combination a.1 * e1 + a.2.1 * e2 + a.2.2 * e3
    have k1 := key (cvFirst r.1)
    have k2 := key (cvSecond r.1)
    simp only [dot3_point, first_second, second_first, zero_mul, add_zero] at k1 k2
    rw [h2 u v ((hQ u).2 hx) ((hQ v).2 hy)]
    · exact mul_left_cancel₀ (first_ne h) (by linear_combination k1)
    · exact mul_left_cancel₀ (second_ne h) (by linear_combination k2)
  · rintro ⟨h1, h2⟩
    refine ⟨(hQ p).2 h1, fun u v hu hv e1 e2 => ?_⟩
    refine point_inj h (h2 _ _ ((hQ u).1 hu) ((hQ v).1 hv) ?_ ?_ ?_)
    · simp only [cvPoint]; linear_combination (cvFirst r.1).1 * e1 + (cvSecond r.1).1 * e2
    · simp only [cvPoint]; linear_combination (cvFirst r.1).2.1 * e1 + (cvSecond r.1).2.1 * e2
    · simp only [cvPoint]; linear_combination (cvFirst r.1).2.2 * e1 + (cvSecond r.1).2.2 * e2

theorem triple_point (n : V3 K) (r : Ineq3 K) (u v x : K × K) :
    dot3 n (cross3 (sub3 (cvPoint r v) (cvPoint r u)) (sub3 (cvPoint r x) (cvPoint r u))) =
      ((v.1 - u.1) * (x.2 - u.2) - (v.2 - u.2) * (x.1 - u.1)) * dot3 n (cross3 (cvFirst r.1) (cvSecond r.1)) := by
  simp only [dot3, cross3, sub3, cvPoint]; ring

theorem normal_pos {a : V3 K} (h : dot3 a a ≠ 0) : 0 < dot3 a (cross3 (cvFirst a) (cvSecond a)) := by
  have : dot3 a (cross3 (cvFirst a) (cvSecond a)) = dot3 a a * dot3 (cvFirst a) (cvFirst a) := by
    have h := dot3_first a
    simp only [cvSecond, cross3, dot3] at h ⊢
    linear_combination (-(a.1 * (cvFirst a).1 + a.2.1 * (cvFirst a).2.1 + a.2.2 * (cvFirst a).2.2)) * h
  rw [this]
  exact mul_pos (dot3_self_pos h) (dot3_self_pos (first_ne h))

/-- A side of the plane set is a side of the face. -/
theorem side_point {r : Ineq3 K} (h : dot3 r.1 r.1 ≠ 0) {F : V3 K → Prop} (hF : ∀ x, F x → dot3 r.1 x = r.2)
    {Q : K × K → Prop} (hQ : ∀ p, Q p ↔ F (cvPoint r p)) {u v : K × K} (hs : Side Q u v) :
    Side3 r.1 F (cvPoint r u) (cvPoint r v) := by
  obtain ⟨a, h1, h2, h3⟩ := hs
  refine ⟨fun he => ?_, fun x hx => ?_⟩
  · rw [point_inj h he] at h3
    simp at h3
  · obtain ⟨p, rfl⟩ : ∃ p, cvPoint r p = x := ⟨_, point_coords h (hF x hx)⟩
    rw [triple_point]
    refine mul_nonpos_of_nonpos_of_nonneg ?_ (normal_pos h).le
    have h4 := h2 p ((hQ p).2 hx)
    simp only [dot2] at h1 h4
    -- `a` is orthogonal to `d = v - u` and makes a positive turn with it
    have hd : 0 < (v.1 - u.1) ^ 2 + (v.2 - u.2) ^ 2 := by
      rcases (add_nonneg (sq_nonneg (v.1 - u.1)) (sq_nonneg (v.2 - u.2))).lt_or_eq with hlt | heq
      · exact hlt
      · have e1 : v.1 - u.1 = 0 := pow_eq_zero_iff (two_ne_zero) |>.1 (by nlinarith [sq_nonneg (v.1 - u.1), sq_nonneg (v.2 - u.2)])
        have e2 : v.2 - u.2 = 0 := pow_eq_zero_iff (two_ne_zero) |>.1 (by nlinarith [sq_nonneg (v.1 - u.1), sq_nonneg (v.2 - u.2)])
        rw [e1, e2] at h3
        simp at h3
    have key : (a.1 * (v.2 - u.2) - a.2 * (v.1 - u.1)) * ((v.1 - u.1) * (p.2 - u.2) - (v.2 - u.2) * (p.1 - u.1)) =
        -(((v.1 - u.1) ^ 2 + (v.2 - u.2) ^ 2) * (a.1 * (p.1 - u.1) + a.2 * (p.2 - u.2))) := by
      linear_combination (-((p.1 - u.1) * (v.1 - u.1) + (p.2 - u.2) * (v.2 - u.2))) * h1
    by_contra hcon
    push Not at hcon
    have l1 := mul_pos h3 hcon
    rw [key] at l1
    have l2 := mul_nonneg hd.le (show 0 ≤ a.1 * (p.1 - u.1) + a.2 * (p.2 - u.2) by linarith)
    linarith

/-- The vertex list of the plane set, carried to space. -/
theorem faceList_point {r : Ineq3 K} (h : dot3 r.1 r.1 ≠ 0) {F : V3 K → Prop} (hF : ∀ x, F x → dot3 r.1 x = r.2)
    {Q : K × K → Prop} (hQ : ∀ p, Q p ↔ F (cvPoint r p)) {C : List (K × K)} (hC : VertexList Q C) :
    FaceList r.1 F (C.map (cvPoint r)) := by
  obtain ⟨h1, h2, h3⟩ := hC
  refine ⟨(List.nodup_map_iff fun p q => point_inj h).2 h1, fun v => ?_, fun hl => ?_⟩
  · rw [List.mem_map]
    constructor
    · rintro ⟨p, hp, rfl⟩
      exact (extreme_iff h hF hQ p).1 ((h2 p).1 hp)
    · intro hv
      have e := point_coords h (hF v hv.1)
      refine ⟨cvCoords r v, (h2 _).2 ((extreme_iff h hF hQ _).2 ?_), e⟩
      rwa [e]
  · have := h3 (by simpa using hl)
    have e : C.map (cvPoint r) ++ (C.map (cvPoint r)).head?.toList = (C ++ C.head?.toList).map (cvPoint r) := by
      cases C <;> simp
    rw [e, List.isChain_map]
    exact this.imp fun u v huv => side_point h hF hQ huv

theorem closePath_map {α β : Type*} (f : α → β) (C : List α) : closePath (C.map f) = (closePath C).map f := by
  unfold closePath
  rw [List.length_map]
  split_ifs
  · rfl
  · cases C <;> simp

theorem abs_dot3_le (a x : V3 K) {R : K} (h : |x.1| ≤ R ∧ |x.2.1| ≤ R ∧ |x.2.2| ≤ R) :
    |dot3 a x| ≤ (|a.1| + |a.2.1| + |a.2.2|) * R := by
  obtain ⟨h1, h2, h3⟩ := h
  calc |dot3 a x| ≤ |a.1 * x.1| + |a.2.1 * x.2.1| + |a.2.2 * x.2.2| := abs_add_three _ _ _
    _ = |a.1| * |x.1| + |a.2.1| * |x.2.1| + |a.2.2| * |x.2.2| := by rw [abs_mul, abs_mul, abs_mul]
    _ ≤ |a.1| * R + |a.2.1| * R + |a.2.2| * R := by
        have := mul_le_mul_of_nonneg_left h1 (abs_nonneg a.1)
        have := mul_le_mul_of_nonneg_left h2 (abs_nonneg a.2.1)
        have := mul_le_mul_of_nonneg_left h3 (abs_nonneg a.2.2)
        linarith
    _ = _ := by ring

/-- Bounded faces are bounded in the new variables, and conversely. -/
theorem bounded_point {r : Ineq3 K} (h : dot3 r.1 r.1 ≠ 0) {F : V3 K → Prop} (hF : ∀ x, F x → dot3 r.1 x = r.2)
    {Q : K × K → Prop} (hQ : ∀ p, Q p ↔ F (cvPoint r p)) : BoundedSet Q ↔ BoundedSet3 F := by
  constructor
  · rintro ⟨R, hR⟩
    have one : ∀ a b c : K, ∀ p : K × K, |p.1| ≤ R ∧ |p.2| ≤ R → |a + b * p.1 + c * p.2| ≤ |a| + |b| * R + |c| * R := by
      intro a b c p hp
      have h1 := mul_le_mul_of_nonneg_left hp.1 (abs_nonneg b)
      have h2 := mul_le_mul_of_nonneg_left hp.2 (abs_nonneg c)
      have h3 := abs_add_three a (b * p.1) (c * p.2)
      rw [abs_mul, abs_mul] at h3
      linarith
    refine ⟨max (|(cvOrigin r).1| + |(cvFirst r.1).1| * R + |(cvSecond r.1).1| * R)
      (max (|(cvOrigin r).2.1| + |(cvFirst r.1).2.1| * R + |(cvSecond r.1).2.1| * R)
        (|(cvOrigin r).2.2| + |(cvFirst r.1).2.2| * R + |(cvSecond r.1).2.2| * R)), fun x hx => ?_⟩
    obtain ⟨p, rfl⟩ : ∃ p, cvPoint r p = x := ⟨_, point_coords h (hF x hx)⟩
    have hp := hR p ((hQ p).2 hx)
    exact ⟨le_trans (one _ _ _ p hp) (le_max_left _ _),
      le_trans (one _ _ _ p hp) (le_trans (le_max_left _ _) (le_max_right _ _)),
      le_trans (one _ _ _ p hp) (le_trans (le_max_right _ _) (le_max_right _ _))⟩
  · rintro ⟨R, hR⟩
    have one : ∀ y : V3 K, ∀ x : V3 K, |x.1| ≤ R ∧ |x.2.1| ≤ R ∧ |x.2.2| ≤ R →
        |dot3 (sub3 x (cvOrigin r)) y / dot3 y y| ≤
          ((|y.1| + |y.2.1| + |y.2.2|) * R + |dot3 y (cvOrigin r)|) / |dot3 y y| := by
      intro y x hx
      rw [abs_div, dot3_sub]
      refine div_le_div_of_nonneg_right ?_ (abs_nonneg _)
      exact (abs_sub _ _).trans (add_le_add (abs_dot3_le y x hx) le_rfl)
    refine ⟨max (((|(cvFirst r.1).1| + |(cvFirst r.1).2.1| + |(cvFirst r.1).2.2|) * R +
        |dot3 (cvFirst r.1) (cvOrigin r)|) / |dot3 (cvFirst r.1) (cvFirst r.1)|)
      (((|(cvSecond r.1).1| + |(cvSecond r.1).2.1| + |(cvSecond r.1).2.2|) * R +
        |dot3 (cvSecond r.1) (cvOrigin r)|) / |dot3 (cvSecond r.1) (cvSecond r.1)|), fun p hp => ?_⟩
    have hx := hR _ ((hQ p).1 hp)
    have e := coords_point h p
    rw [← e]
    exact ⟨(one _ _ hx).trans (le_max_left _ _), (one _ _ hx).trans (le_max_right _ _)⟩

end IntvalPy
