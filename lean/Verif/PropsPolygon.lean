import Verif.PropsLineqs
import Mathlib.Tactic.LinearCombination
import Mathlib.Data.List.Chain

/-!
# All vertices of a polygon are returned (C81)
-/

set_option autoImplicit false
set_option linter.unusedSectionVars false

namespace IntvalPy

open Spec

variable {K : Type*} [Field K] [LinearOrder K] [FloorRing K] [IsStrictOrderedRing K]

/-- `v` is an extreme point (a vertex) of the set `P`: it is not the middle of two other points of `P`. -/
def Extreme (P : K × K → Prop) (v : K × K) : Prop :=
  P v ∧ ∀ x y, P x → P y → x.1 + y.1 = 2 * v.1 → x.2 + y.2 = 2 * v.2 → x = v

/-- The set `P` lies in some square. -/
def BoundedSet (P : K × K → Prop) : Prop := ∃ R, ∀ x, P x → |x.1| ≤ R ∧ |x.2| ≤ R

/-- `c` satisfies every row strictly. -/
def Interior (S : List (Ineq2 K)) (c : K × K) : Prop := ∀ r ∈ S, r.2 < dot2 r.1 c

/-- Any two vertices differ by more than `1e-8` in some coordinate. -/
def Separated (P : K × K → Prop) : Prop :=
  ∀ u v, Extreme P u → Extreme P v → u ≠ v → 1 / 10 ^ 8 < maxDist u v

/-- The point `u + t d`. -/
def mv (u d : K × K) (t : K) : K × K := (u.1 + t * d.1, u.2 + t * d.2)

theorem dot2_mv (a u d : K × K) (t : K) : dot2 a (mv u d t) = dot2 a u + t * dot2 a d := by
  simp only [dot2, mv]; ring

theorem mv_mv (u d : K × K) (s t : K) : mv (mv u d s) d t = mv u d (s + t) := by
  refine Prod.ext ?_ ?_ <;> simp only [mv] <;> ring

theorem mv_zero (u d : K × K) : mv u d 0 = u := by
  refine Prod.ext ?_ ?_ <;> simp [mv]

/-- The edge of row `r` from `u` to `v`: `v - u` points along `dirOf r`, and no solution lies on the line
beyond the ends. -/
structure GEdge (S : List (Ineq2 K)) (r : Ineq2 K) (u v : K × K) : Prop where
  mem : r ∈ S
  nz : dot2 r.1 r.1 ≠ 0
  on : dot2 r.1 u = r.2
  satu : Sat2 S u
  satv : Sat2 S v
  ends : ∃ τ, 0 ≤ τ ∧ v = mv u (dirOf r) τ
  lo : ∀ t, Sat2 S (mv u (dirOf r) t) → 0 ≤ t
  hi : ∀ t, Sat2 S (mv v (dirOf r) t) → t ≤ 0

theorem GEdge.on' {S : List (Ineq2 K)} {r : Ineq2 K} {u v : K × K} (h : GEdge S r u v) : dot2 r.1 v = r.2 := by
  obtain ⟨τ, -, rfl⟩ := h.ends
  rw [dot2_mv, dot2_dirOf, h.on, mul_zero, add_zero]

theorem dirCross (r s : Ineq2 K) : dot2 s.1 (dirOf r) = -dot2 r.1 (dirOf s) := by
  simp only [dot2, dirOf]; ring

/-- A step in a direction that no active row forbids. -/
theorem small_move (S : List (Ineq2 K)) (v d : K × K) (hv : Sat2 S v)
    (hd : ∀ l ∈ S, dot2 l.1 v = l.2 → 0 ≤ dot2 l.1 d) : ∃ ε, 0 < ε ∧ ∀ t, 0 ≤ t → t ≤ ε → Sat2 S (mv v d t) := by
  induction S with
  | nil => exact ⟨1, one_pos, fun _ _ _ r hr => by cases hr⟩
  | cons r S ih =>
      obtain ⟨ε, hε, h⟩ := ih (fun s hs => hv s (List.mem_cons_of_mem _ hs))
        fun l hl => hd l (List.mem_cons_of_mem _ hl)
      by_cases hr : 0 ≤ dot2 r.1 d
      · refine ⟨ε, hε, fun t h0 h1 s hs => ?_⟩
        rcases List.mem_cons.1 hs with rfl | hs
        · rw [dot2_mv]
          have := hv s List.mem_cons_self
          have := mul_nonneg h0 hr
          linarith
        · exact h t h0 h1 s hs
      · have hlt : r.2 < dot2 r.1 v := lt_of_le_of_ne (hv r List.mem_cons_self) fun he =>
          hr (hd r List.mem_cons_self he.symm)
        have hneg : 0 < -dot2 r.1 d := neg_pos.2 (not_le.1 hr)
        have hq : 0 < (dot2 r.1 v - r.2) / (-dot2 r.1 d) := div_pos (sub_pos.2 hlt) hneg
        refine ⟨min ε ((dot2 r.1 v - r.2) / (-dot2 r.1 d)), lt_min hε hq, fun t h0 h1 s hs => ?_⟩
        rcases List.mem_cons.1 hs with rfl | hs
        · have := (le_div_iff₀ hneg).1 (h1.trans (min_le_right _ _))
          rw [dot2_mv]
          linarith
        · exact h t h0 (h1.trans (min_le_left _ _)) s hs

theorem GEdge.extreme_stop {S : List (Ineq2 K)} {r : Ineq2 K} {u v : K × K} (h : GEdge S r u v) :
    Extreme (Sat2 S) v := by
  refine ⟨h.satv, fun x y hx hy h1 h2 => ?_⟩
  have hs : dot2 r.1 x + dot2 r.1 y = 2 * r.2 := by
    rw [← h.on']
    simp only [dot2]
    linear_combination r.1.1 * h1 + r.1.2 * h2
  have hx' := hx r h.mem
  have hy' := hy r h.mem
  have ex : dot2 r.1 x = r.2 := by linarith
  obtain ⟨t, rfl⟩ := (onLine_iff r h.nz x).1 ex
  obtain ⟨t0, rfl⟩ := (onLine_iff r h.nz v).1 h.on'
  have e1 : linePt r t = mv (linePt r t0) (dirOf r) (t - t0) := by
    refine Prod.ext ?_ ?_ <;> simp only [linePt, mv] <;> ring
  have e2 : y = mv (linePt r t0) (dirOf r) (t0 - t) := by
    refine Prod.ext ?_ ?_
    · simp only [linePt, mv] at h1 ⊢; linear_combination h1
    · simp only [linePt, mv] at h2 ⊢; linear_combination h2
  have a := h.hi _ (e1 ▸ hx)
  have b := h.hi _ (e2 ▸ hy)
  rw [show t = t0 by linarith]

theorem GEdge.extreme_start {S : List (Ineq2 K)} {r : Ineq2 K} {u v : K × K} (h : GEdge S r u v) :
    Extreme (Sat2 S) u := by
  refine ⟨h.satu, fun x y hx hy h1 h2 => ?_⟩
  have hs : dot2 r.1 x + dot2 r.1 y = 2 * r.2 := by
    rw [← h.on]
    simp only [dot2]
    linear_combination r.1.1 * h1 + r.1.2 * h2
  have hx' := hx r h.mem
  have hy' := hy r h.mem
  have ex : dot2 r.1 x = r.2 := by linarith
  obtain ⟨t, rfl⟩ := (onLine_iff r h.nz x).1 ex
  obtain ⟨t0, rfl⟩ := (onLine_iff r h.nz u).1 h.on
  have e1 : linePt r t = mv (linePt r t0) (dirOf r) (t - t0) := by
    refine Prod.ext ?_ ?_ <;> simp only [linePt, mv] <;> ring
  have e2 : y = mv (linePt r t0) (dirOf r) (t0 - t) := by
    refine Prod.ext ?_ ?_
    · simp only [linePt, mv] at h1 ⊢; linear_combination h1
    · simp only [linePt, mv] at h2 ⊢; linear_combination h2
  have a := h.lo _ (e1 ▸ hx)
  have b := h.lo _ (e2 ▸ hy)
  rw [show t = t0 by linarith]

theorem mv_ne {r : Ineq2 K} (h : dot2 r.1 r.1 ≠ 0) (v : K × K) {t : K} (ht : t ≠ 0) : mv v (dirOf r) t ≠ v := by
  intro he
  have h1 := congrArg Prod.fst he
  have h2 := congrArg Prod.snd he
  simp only [mv, dirOf] at h1 h2
  have a : r.1.2 = 0 := by
    have : t * r.1.2 = 0 := by linear_combination -h1
    exact (mul_eq_zero.1 this).resolve_left ht
  have b : r.1.1 = 0 := by
    have : t * r.1.1 = 0 := by linear_combination h2
    exact (mul_eq_zero.1 this).resolve_left ht
  exact h (by simp [dot2, a, b])

/-- At the end of an edge another edge starts, and this one has a positive length. -/
theorem next_edge {S : List (Ineq2 K)} (hS : ∀ r ∈ S, dot2 r.1 r.1 ≠ 0) {c : K × K} (hc : Interior S c)
    {r : Ineq2 K} {u v : K × K} (h : GEdge S r u v) :
    ∃ k ∈ S, dot2 k.1 v = k.2 ∧ (∀ t, Sat2 S (mv v (dirOf k) t) → 0 ≤ t) ∧
      ∃ ε, 0 < ε ∧ Sat2 S (mv v (dirOf k) ε) := by
  classical
  set d : K × K := (c.1 - v.1, c.2 - v.2) with hd
  have hpos : ∀ l ∈ S, dot2 l.1 v = l.2 → 0 < dot2 l.1 d := by
    intro l hl he
    have h1 := hc l hl
    have : dot2 l.1 d = dot2 l.1 c - dot2 l.1 v := by simp only [dot2, hd]; ring
    rw [this, he]
    linarith
  have hk0 : ∃ k0 ∈ S, dot2 k0.1 v = k0.2 ∧ dot2 k0.1 (dirOf r) < 0 := by
    by_contra hno
    push Not at hno
    obtain ⟨ε, hε, hst⟩ := small_move S v (dirOf r) h.satv hno
    exact absurd (h.hi ε (hst ε hε.le le_rfl)) (not_le.2 hε)
  obtain ⟨k0, hk0, hk0v, hk0d⟩ := hk0
  let g : Ineq2 K → K := fun l => dot2 l.1 (-d.2, d.1) / dot2 l.1 d
  -- comparison of slopes
  have hdd : ∀ k ∈ S, dot2 k.1 v = k.2 → 0 < dot2 d d := by
    intro k hk hv
    refine lt_of_le_of_ne (add_nonneg (mul_self_nonneg _) (mul_self_nonneg _)) fun h0 => ?_
    have h1 := hpos k hk hv
    have a : d.1 = 0 := by
      have := mul_self_nonneg d.1; have := mul_self_nonneg d.2
      simp only [dot2] at h0
      exact mul_self_eq_zero.1 (by linarith)
    have b : d.2 = 0 := by
      have := mul_self_nonneg d.1; have := mul_self_nonneg d.2
      simp only [dot2] at h0
      exact mul_self_eq_zero.1 (by linarith)
    simp [dot2, a, b] at h1
  have key : ∀ k l : Ineq2 K, dot2 l.1 (dirOf k) * dot2 d d
      = dot2 k.1 d * dot2 l.1 (-d.2, d.1) - dot2 k.1 (-d.2, d.1) * dot2 l.1 d := by
    intro k l; simp only [dot2, dirOf]; ring
  have hle : ∀ k ∈ S, dot2 k.1 v = k.2 → ∀ l ∈ S, dot2 l.1 v = l.2 → (g k ≤ g l ↔ 0 ≤ dot2 l.1 (dirOf k)) := by
    intro k hk hkv l hl hlv
    have h1 := hpos k hk hkv
    have h2 := hpos l hl hlv
    have h3 := hdd k hk hkv
    show _ / _ ≤ _ / _ ↔ _
    rw [div_le_div_iff₀ h1 h2, ← mul_nonneg_iff_of_pos_right h3, key k l]
    constructor <;> intro h <;> linarith
  let Act := (S.filter fun l => decide (dot2 l.1 v = l.2)).toFinset
  have hmemA : ∀ l, l ∈ Act ↔ l ∈ S ∧ dot2 l.1 v = l.2 := fun l => by simp [Act]
  obtain ⟨k, hkA, hkmin⟩ := Act.exists_min_image g ⟨k0, (hmemA k0).2 ⟨hk0, hk0v⟩⟩
  obtain ⟨hk, hkv⟩ := (hmemA k).1 hkA
  obtain ⟨ε, hε, hst⟩ := small_move S v (dirOf k) h.satv fun l hl hlv =>
    (hle k hk hkv l hl hlv).1 (hkmin l ((hmemA l).2 ⟨hl, hlv⟩))
  refine ⟨k, hk, hkv, fun t ht => ?_, ε, hε, hst ε hε.le le_rfl⟩
  have hlt : g k < g r := by
    refine (hkmin k0 ((hmemA k0).2 ⟨hk0, hk0v⟩)).trans_lt (not_le.1 fun hcon => ?_)
    exact absurd ((hle r h.mem h.on' k0 hk0 hk0v).1 hcon) (not_le.2 hk0d)
  have hX : 0 < dot2 r.1 (dirOf k) := by
    by_contra hcon
    have : 0 ≤ dot2 k.1 (dirOf r) := by rw [dirCross]; linarith [not_lt.1 hcon]
    exact absurd ((hle r h.mem h.on' k hk hkv).2 this) (not_le.2 hlt)
  have h5 := ht r h.mem
  rw [dot2_mv, h.on'] at h5
  by_contra hneg
  have := mul_neg_of_neg_of_pos (not_le.1 hneg) hX
  linarith

/-- Two edges of positive length with the same end have the same start. -/
theorem prev_unique {S : List (Ineq2 K)} {c : K × K} (hc : Interior S c) {k k' : Ineq2 K} {u u' v : K × K}
    (h : GEdge S k u v) (h' : GEdge S k' u' v) (hne : u ≠ v) (hne' : u' ≠ v) : u = u' := by
  obtain ⟨τ, hτ, e⟩ := h.ends
  obtain ⟨τ', hτ', e'⟩ := h'.ends
  have hτp : 0 < τ := lt_of_le_of_ne hτ fun h0 => hne (by rw [e, ← h0, mv_zero])
  have hτp' : 0 < τ' := lt_of_le_of_ne hτ' fun h0 => hne' (by rw [e', ← h0, mv_zero])
  have hu : u = mv v (dirOf k) (-τ) := by
    refine Prod.ext ?_ ?_ <;> rw [e] <;> simp only [mv] <;> ring
  have hu' : u' = mv v (dirOf k') (-τ') := by
    refine Prod.ext ?_ ?_ <;> rw [e'] <;> simp only [mv] <;> ring
  have a : dot2 k'.1 (dirOf k) ≤ 0 := by
    have := h.satu k' h'.mem
    rw [hu, dot2_mv, h'.on'] at this
    by_contra hcon
    have := mul_pos hτp (not_le.1 hcon)
    linarith
  have b : dot2 k.1 (dirOf k') ≤ 0 := by
    have := h'.satu k h.mem
    rw [hu', dot2_mv, h.on'] at this
    by_contra hcon
    have := mul_pos hτp' (not_le.1 hcon)
    linarith
  have hz : dot2 k'.1 (dirOf k) = 0 := by
    rw [dirCross] at b ⊢
    linarith [dirCross k k']
  have p : 0 < dot2 k.1 c - k.2 := sub_pos.2 (hc k h.mem)
  have p' : 0 < dot2 k'.1 c - k'.2 := sub_pos.2 (hc k' h'.mem)
  set l := dot2 k.1 c - k.2 with hl
  set l' := dot2 k'.1 c - k'.2 with hl'
  have hon := h.on'
  have hon' := h'.on'
  -- `l * k' = l' * k`
  have f1 : l * k'.1.1 = l' * k.1.1 := by
    rw [hl, hl', ← hon, ← hon']
    simp only [dot2, dirOf] at hz ⊢
    linear_combination (-(c.2 - v.2)) * hz
  have f2 : l * k'.1.2 = l' * k.1.2 := by
    rw [hl, hl', ← hon, ← hon']
    simp only [dot2, dirOf] at hz ⊢
    linear_combination (c.1 - v.1) * hz
  have hdir : dirOf k' = ((l' / l) * (dirOf k).1, (l' / l) * (dirOf k).2) := by
    refine Prod.ext ?_ ?_ <;> simp only [dirOf] <;> field_simp <;> linarith
  have conv : ∀ w t, mv w (dirOf k') t = mv w (dirOf k) (t * (l' / l)) := by
    intro w t
    rw [hdir]
    refine Prod.ext ?_ ?_ <;> simp only [mv] <;> ring
  rw [conv] at hu'
  have q1 : Sat2 S (mv u (dirOf k) (τ + -τ' * (l' / l))) := by
    have : mv u (dirOf k) (τ + -τ' * (l' / l)) = u' := by
      rw [← mv_mv, ← e, hu']
    rw [this]; exact h'.satu
  have g1 := h.lo _ q1
  have q2 : Sat2 S (mv u' (dirOf k') (τ' - τ * (l / l'))) := by
    have : mv u' (dirOf k') (τ' - τ * (l / l')) = u := by
      rw [conv, hu', mv_mv, hu]
      congr 1
      field_simp
      ring
    rw [this]; exact h.satu
  have g2 := h'.lo _ q2
  have g3 : τ = τ' * (l' / l) := by
    apply le_antisymm
    · have := mul_le_mul_of_nonneg_right (sub_nonneg.1 g2) (div_nonneg p'.le p.le)
      have h7 : τ * (l / l') * (l' / l) = τ := by field_simp
      rwa [h7] at this
    · linarith
  rw [hu, hu', g3, neg_mul]

/-- Seen from a vertex between two edges of positive length, a linear function that does not decrease along
both edges does not decrease towards any solution. -/
theorem cone_min {S : List (Ineq2 K)} {c : K × K} (hc : Interior S c) {r k : Ineq2 K} {u v w : K × K}
    (h : GEdge S r u v) (h' : GEdge S k v w) (hne : u ≠ v) (hne' : v ≠ w) (f : K × K)
    (hu : dot2 f v ≤ dot2 f u) (hw : dot2 f v ≤ dot2 f w) (x : K × K) (hx : Sat2 S x) : dot2 f v ≤ dot2 f x := by
  obtain ⟨τ, hτ, e⟩ := h.ends
  obtain ⟨τ', hτ', e'⟩ := h'.ends
  have hτp : 0 < τ := lt_of_le_of_ne hτ fun h0 => hne (by rw [e, ← h0, mv_zero])
  have hτp' : 0 < τ' := lt_of_le_of_ne hτ' fun h0 => hne' (by rw [e', ← h0, mv_zero])
  have X0 : 0 ≤ dot2 r.1 (dirOf k) := by
    have := h'.satv r h.mem
    rw [e', dot2_mv, h.on'] at this
    by_contra hcon
    have := mul_neg_of_pos_of_neg hτp' (not_le.1 hcon)
    linarith
  have X : 0 < dot2 r.1 (dirOf k) := by
    refine lt_of_le_of_ne X0 fun hz => ?_
    have p : 0 < dot2 k.1 c - k.2 := sub_pos.2 (hc k h'.mem)
    have p' : 0 < dot2 r.1 c - r.2 := sub_pos.2 (hc r h.mem)
    set l := dot2 k.1 c - k.2 with hl
    set l' := dot2 r.1 c - r.2 with hl'
    have hon := h'.on
    have hon' := h.on'
    have f1 : l * r.1.1 = l' * k.1.1 := by
      rw [hl, hl', ← hon, ← hon']
      simp only [dot2, dirOf] at hz ⊢
      linear_combination (c.2 - v.2) * hz
    have f2 : l * r.1.2 = l' * k.1.2 := by
      rw [hl, hl', ← hon, ← hon']
      simp only [dot2, dirOf] at hz ⊢
      linear_combination (-(c.1 - v.1)) * hz
    have : mv v (dirOf k) τ' = mv v (dirOf r) (τ' * (l / l')) := by
      refine Prod.ext ?_ ?_ <;> simp only [mv, dirOf] <;> field_simp
      · linear_combination τ' * f2
      · linear_combination (-τ') * f1
    have h9 := h.hi (τ' * (l / l')) (by rw [← this, ← e']; exact h'.satv)
    exact absurd h9 (not_le.2 (mul_pos hτp' (div_pos p p')))
  have f1 : 0 ≤ dot2 f (dirOf k) := by
    rw [e', dot2_mv] at hw
    by_contra hcon
    have := mul_neg_of_pos_of_neg hτp' (not_le.1 hcon)
    linarith
  have f2 : dot2 f (dirOf r) ≤ 0 := by
    rw [e, dot2_mv] at hu
    by_contra hcon
    have := mul_pos hτp (not_le.1 hcon)
    linarith
  have a : 0 ≤ dot2 r.1 x - dot2 r.1 v := by rw [h.on']; exact sub_nonneg.2 (hx r h.mem)
  have b : 0 ≤ dot2 k.1 x - dot2 k.1 v := by rw [h'.on]; exact sub_nonneg.2 (hx k h'.mem)
  have id1 : dot2 r.1 (dirOf k) * (dot2 f x - dot2 f v)
      = (dot2 r.1 x - dot2 r.1 v) * dot2 f (dirOf k) - (dot2 k.1 x - dot2 k.1 v) * dot2 f (dirOf r) := by
    simp only [dot2, dirOf]; ring
  have h5 : 0 ≤ dot2 r.1 (dirOf k) * (dot2 f x - dot2 f v) := by
    rw [id1]
    have := mul_nonneg a f1
    have := mul_nonpos_of_nonneg_of_nonpos b f2
    linarith
  have := nonneg_of_mul_nonneg_right h5 X
  linarith

/-- A vertex is the only minimiser of some linear function. -/
theorem extreme_exposed {S : List (Ineq2 K)} {v : K × K} (h : Extreme (Sat2 S) v) :
    ∃ f : K × K, ∀ x, Sat2 S x → dot2 f x ≤ dot2 f v → x = v := by
  have two : ∃ r ∈ S, ∃ s ∈ S, dot2 r.1 v = r.2 ∧ dot2 s.1 v = s.2 ∧ dot2 s.1 (dirOf r) ≠ 0 := by
    by_contra hno
    push Not at hno
    have main : ∀ d : K × K, d ≠ (0, 0) → (∀ l ∈ S, dot2 l.1 v = l.2 → dot2 l.1 d = 0) → False := by
      intro d hd0 hd
      obtain ⟨ε, hε, h1⟩ := small_move S v d h.1 fun l hl he => (hd l hl he).ge
      obtain ⟨ε', hε', h2⟩ := small_move S v (-d.1, -d.2) h.1 fun l hl he => by
        have := hd l hl he
        simp only [dot2] at this ⊢
        linarith
      set t := min ε ε' with ht
      have htp : 0 < t := lt_min hε hε'
      have := h.2 _ _ (h1 t htp.le (min_le_left _ _)) (h2 t htp.le (min_le_right _ _))
        (by simp only [mv]; ring) (by simp only [mv]; ring)
      apply hd0
      have e1 := congrArg Prod.fst this
      have e2 := congrArg Prod.snd this
      simp only [mv] at e1 e2
      refine Prod.ext ?_ ?_
      · exact (mul_eq_zero.1 (show t * d.1 = 0 by linarith)).resolve_left htp.ne'
      · exact (mul_eq_zero.1 (show t * d.2 = 0 by linarith)).resolve_left htp.ne'
    by_cases hact : ∃ r ∈ S, dot2 r.1 v = r.2 ∧ dirOf r ≠ (0, 0)
    · obtain ⟨r, hr, hrv, hr0⟩ := hact
      exact main (dirOf r) hr0 fun l hl he => hno r hr l hl hrv he
    · push Not at hact
      refine main (1, 0) (by simp) fun l hl he => ?_
      have := hact l hl he
      simp only [dirOf, Prod.mk.injEq] at this
      simp [dot2, this.2]
  obtain ⟨r, hr, s, hs, hrv, hsv, hX⟩ := two
  refine ⟨(r.1.1 + s.1.1, r.1.2 + s.1.2), fun x hx hle => ?_⟩
  have a := hx r hr
  have b := hx s hs
  have e : ∀ y, dot2 (r.1.1 + s.1.1, r.1.2 + s.1.2) y = dot2 r.1 y + dot2 s.1 y := fun y => by
    simp only [dot2]; ring
  rw [e, e] at hle
  have a' : dot2 r.1 x - dot2 r.1 v = 0 := by linarith
  have b' : dot2 s.1 x - dot2 s.1 v = 0 := by linarith
  refine Prod.ext ?_ ?_
  · have : dot2 s.1 (dirOf r) * (x.1 - v.1) = 0 := by
      simp only [dot2, dirOf] at a' b' ⊢
      linear_combination s.1.2 * a' - r.1.2 * b'
    linarith [(mul_eq_zero.1 this).resolve_left hX]
  · have : dot2 s.1 (dirOf r) * (x.2 - v.2) = 0 := by
      simp only [dot2, dirOf] at a' b' ⊢
      linear_combination -s.1.1 * a' + r.1.1 * b'
    linarith [(mul_eq_zero.1 this).resolve_left hX]

/-! ## The path -/

/-- What the path algorithm needs to know about the segments. -/
structure PathOK (S : List (Seg K)) : Prop where
  sep : ∀ s ∈ S, ∀ s' ∈ S, ∀ u ∈ [s.1, s.2], ∀ v ∈ [s'.1, s'.2], u ≠ v → 1 / 10 ^ 8 < maxDist u v
  next : ∀ s ∈ S, ∃ s' ∈ S, s'.1 = s.2 ∧ s'.2 ≠ s'.1
  start : ∀ s ∈ S, ∃ s' ∈ S, s'.1 = s.1 ∧ s'.2 ≠ s'.1
  prev : ∀ s ∈ S, ∀ s' ∈ S, s.1 ≠ s.2 → s'.1 ≠ s'.2 → s.2 = s'.2 → s.1 = s'.1

theorem maxDist_self (u : K × K) : maxDist u u = 0 := by simp [maxDist]

theorem small_pos : (0 : K) < 1 / 10 ^ 8 := by positivity

/-- The segment chosen by the search starts exactly at the current point. -/
theorem findStart_spec {S0 S : List (Seg K)} (h0 : PathOK S0) (hsub : ∀ s ∈ S, s ∈ S0) {bs : K × K}
    (hbs : ∃ s ∈ S0, bs = s.1 ∨ bs = s.2) (hex : ∃ s ∈ S, s.1 = bs) (old : Nat) :
    ∃ s, S[findStart bs S old]? = some s ∧ s.1 = bs := by
  obtain ⟨s1, hs1, hb⟩ := hbs
  have hclose : ∀ s ∈ S, (decide (maxDist bs s.1 < 1 / 10 ^ 8) = true ↔ s.1 = bs) := by
    intro s hs
    rw [decide_eq_true_eq]
    constructor
    · intro hlt
      by_contra hne
      have := h0.sep s1 hs1 s (hsub s hs) bs (by rcases hb with rfl | rfl <;> simp) s.1 (by simp) (Ne.symm hne)
      exact absurd hlt (not_lt.2 this.le)
    · intro he
      rw [he, maxDist_self]
      exact small_pos
  unfold findStart
  cases hf : S.findIdx? fun s => decide (maxDist bs s.1 < 1 / 10 ^ 8) with
  | none =>
      obtain ⟨s, hs, he⟩ := hex
      have := List.findIdx?_eq_none_iff.1 hf s hs
      rw [(hclose s hs).2 he] at this
      cases this
  | some k =>
      obtain ⟨hk, hp, -⟩ := List.findIdx?_eq_some_iff_getElem.1 hf
      exact ⟨S[k], List.getElem?_eq_getElem hk, (hclose _ (List.getElem_mem hk)).1 hp⟩

/-- `u → v` is one of the segments and has a positive length. -/
def Link (S : List (Seg K)) (u v : K × K) : Prop := (u, v) ∈ S ∧ u ≠ v

theorem mem_eraseIdx_of_ne {α : Type*} {S : List α} {i : Nat} {a b : α} (hi : S[i]? = some a) (hb : b ∈ S)
    (hne : b ≠ a) : b ∈ S.eraseIdx i := by
  rw [List.mem_eraseIdx_iff_getElem?]
  obtain ⟨j, hj⟩ := List.getElem?_of_mem hb
  refine ⟨j, fun he => hne ?_, hj⟩
  subst he
  rw [hi] at hj
  injection hj with hj
  exact hj.symm

theorem pathLoop_spec {S0 : List (Seg K)} (h0 : PathOK S0) {bp : K × K} (fuel : Nat) (bs : K × K) (old : Nat)
    (S : List (Seg K)) (C : List (K × K)) (hfuel : S.length ≤ fuel) (hsub : ∀ s ∈ S, s ∈ S0)
    (hhead : (C ++ [bs]).head? = some bp) (hchain : (C ++ [bs]).IsChain (Link S0)) (hnd : (C ++ [bs]).Nodup)
    (hbs : ∃ s ∈ S0, s.1 = bs) (hrest : ∀ s ∈ S0, s.1 ≠ s.2 → s.1 ∉ C → s ∈ S) :
    ∃ D, pathLoop bp fuel bs old S (C ++ [bs]) = .ok (D ++ [bp]) ∧ (D ++ [bp]).IsChain (Link S0) ∧ D.Nodup ∧
      D.head? = some bp := by
  induction fuel generalizing bs old S C with
  | zero =>
      exfalso
      obtain ⟨s, hs, he⟩ := hbs
      obtain ⟨s', hs', he', hne⟩ := h0.start s hs
      have hnot : s'.1 ∉ C := by
        rw [he', he]
        intro hC
        exact (List.nodup_append.1 hnd).2.2 bs hC bs (List.mem_singleton_self _) rfl
      have := hrest s' hs' (Ne.symm hne) hnot
      rw [List.length_eq_zero_iff.1 (Nat.le_zero.1 hfuel)] at this
      cases this
  | succ fuel ih =>
      have hbsC : bs ∉ C := fun hC => (List.nodup_append.1 hnd).2.2 bs hC bs (List.mem_singleton_self _) rfl
      obtain ⟨s1, hs1, he1⟩ := hbs
      obtain ⟨s', hs', he', hne⟩ := h0.start s1 hs1
      have hs'S : s' ∈ S := hrest s' hs' (Ne.symm hne) (by rw [he', he1]; exact hbsC)
      obtain ⟨s, hs, hse⟩ := findStart_spec h0 hsub ⟨s1, hs1, Or.inl he1.symm⟩ ⟨s', hs'S, he'.trans he1⟩ old
      have hsS : s ∈ S := List.mem_of_getElem? hs
      have hsS0 := hsub s hsS
      have hidx : findStart bs S old < S.length := by
        by_contra hcon
        rw [List.getElem?_eq_none (not_lt.1 hcon)] at hs
        cases hs
      have hlen : (S.eraseIdx (findStart bs S old)).length ≤ fuel := by
        rw [List.length_eraseIdx_of_lt hidx]; omega
      have hsub' : ∀ t ∈ S.eraseIdx (findStart bs S old), t ∈ S0 := fun t ht =>
        hsub t (List.mem_of_mem_eraseIdx ht)
      unfold pathLoop
      rw [if_neg (by simp only [List.isEmpty_iff]; rintro rfl; cases hs'S)]
      dsimp only
      rw [hs]
      dsimp only
      by_cases hdeg : s.2 = bs
      · rw [hdeg, maxDist_self, if_neg (not_lt.2 small_pos.le)]
        refine ih bs _ _ C hlen hsub' hhead hchain hnd ⟨s1, hs1, he1⟩ fun t ht hne' hC => ?_
        refine mem_eraseIdx_of_ne hs (hrest t ht hne' hC) ?_
        rintro rfl
        exact hne' (hse.trans hdeg.symm)
      · have hsep : 1 / 10 ^ 8 < maxDist bs s.2 :=
          h0.sep s hsS0 s hsS0 bs (by rw [← hse]; simp) s.2 (by simp) (Ne.symm hdeg)
        rw [if_pos hsep]
        have hlink : Link S0 bs s.2 := ⟨by rw [← hse]; exact hsS0, Ne.symm hdeg⟩
        by_cases hclose : s.2 = bp
        · rw [hclose, maxDist_self, if_pos small_pos]
          refine ⟨C ++ [bs], rfl, ?_, hnd, hhead⟩
          refine List.isChain_append.2 ⟨hchain, List.isChain_singleton _, ?_⟩
          intro x hx y hy
          simp only [List.getLast?_append, List.getLast?_singleton, Option.some_or, Option.mem_def,
            Option.some.injEq] at hx
          simp only [List.head?_cons, Option.mem_def, Option.some.injEq] at hy
          subst hx hy
          rw [← hclose]
          exact hlink
        · have hbpS0 : ∃ t ∈ S0, bp = t.1 ∨ bp = t.2 := by
            cases C with
            | nil =>
                simp only [List.nil_append, List.head?_cons, Option.some.injEq] at hhead
                exact ⟨s1, hs1, Or.inl (hhead ▸ he1.symm)⟩
            | cons a C =>
                simp only [List.cons_append, List.head?_cons, Option.some.injEq] at hhead
                subst hhead
                cases C with
                | nil =>
                    rw [List.cons_append, List.nil_append, List.isChain_cons_cons] at hchain
                    exact ⟨_, hchain.1.1, Or.inl rfl⟩
                | cons b C =>
                    rw [List.cons_append, List.cons_append, List.isChain_cons_cons] at hchain
                    exact ⟨_, hchain.1.1, Or.inl rfl⟩
          obtain ⟨t, ht, htb⟩ := hbpS0
          have hfar : ¬ maxDist bp s.2 < 1 / 10 ^ 8 := by
            have := h0.sep t ht s hsS0 bp (by rcases htb with rfl | rfl <;> simp) s.2 (by simp) (Ne.symm hclose)
            exact not_lt.2 this.le
          rw [if_neg hfar]
          -- the new point has not been met
          have hnew : s.2 ∉ C ++ [bs] := by
            intro hmem
            obtain ⟨L, R, hLR⟩ := List.append_of_mem hmem
            rcases List.eq_nil_or_concat L with rfl | ⟨L', p, rfl⟩
            · rw [hLR] at hhead
              simp only [List.nil_append, List.head?_cons, Option.some.injEq] at hhead
              exact hclose hhead
            · have hlink' : Link S0 p s.2 := by
                rw [hLR] at hchain
                rw [List.concat_eq_append, List.append_assoc, List.singleton_append] at hchain
                exact (List.isChain_cons_cons.1 (List.isChain_append.1 hchain).2.1).1
              have hp : p = bs := h0.prev _ hlink'.1 _ hlink.1 hlink'.2 hlink.2 rfl
              rw [hp, List.concat_eq_append, List.append_assoc, List.singleton_append] at hLR
              have hnd' := hnd
              have hlast : (C ++ [bs]).getLast? = (s.2 :: R).getLast? := by
                rw [hLR, show L' ++ bs :: s.2 :: R = (L' ++ [bs]) ++ (s.2 :: R) by simp]
                exact List.getLast?_append_of_ne_nil _ (by simp)
              rw [List.getLast?_append, List.getLast?_singleton, Option.some_or] at hlast
              rw [hLR] at hnd'
              have h3 := (List.nodup_cons.1 (List.nodup_append.1 hnd').2.1).1
              exact h3 (List.mem_of_getLast? hlast.symm)
          have := ih s.2 (findStart bs S old) (S.eraseIdx (findStart bs S old)) (C ++ [bs]) hlen hsub' ?_ ?_ ?_ ?_ ?_
          · exact this
          · rw [List.head?_append, hhead]; rfl
          · refine List.isChain_append.2 ⟨hchain, List.isChain_singleton _, ?_⟩
            intro x hx y hy
            simp only [List.getLast?_append, List.getLast?_singleton, Option.some_or, Option.mem_def,
              Option.some.injEq] at hx
            simp only [List.head?_cons, Option.mem_def, Option.some.injEq] at hy
            subst hx hy
            exact hlink
          · refine List.nodup_append.2 ⟨hnd, List.nodup_singleton _, ?_⟩
            intro a ha b hb he
            rw [List.mem_singleton.1 hb] at he
            exact hnew (he ▸ ha)
          · obtain ⟨t, ht, h1, -⟩ := h0.next s hsS0
            exact ⟨t, ht, h1⟩
          · intro t ht hne' hC
            rw [List.mem_append, not_or, List.mem_singleton] at hC
            refine mem_eraseIdx_of_ne hs (hrest t ht hne' hC.1) ?_
            rintro rfl
            exact hC.2 hse

theorem intervals2Path_spec {s : Seg K} {S : List (Seg K)} (h0 : PathOK (s :: S)) :
    ∃ D, intervals2Path (s :: S) = .ok (D ++ [s.1]) ∧ (D ++ [s.1]).IsChain (Link (s :: S)) ∧ D.Nodup ∧
      D.head? = some s.1 := by
  refine pathLoop_spec h0 (bp := s.1) _ s.1 0 (s :: S) [] le_rfl (fun _ h => h) rfl (List.isChain_singleton _)
    (List.nodup_singleton _) ⟨s, List.mem_cons_self, rfl⟩ fun _ h _ _ => h

/-! ## Edges of a bounded set -/

theorem line_mv {r : Ineq2 K} (hN : dot2 r.1 r.1 ≠ 0) {u v : K × K} (hu : dot2 r.1 u = r.2)
    (hv : dot2 r.1 v = r.2) : ∃ t, v = mv u (dirOf r) t := by
  obtain ⟨a, rfl⟩ := (onLine_iff r hN u).1 hu
  obtain ⟨b, rfl⟩ := (onLine_iff r hN v).1 hv
  exact ⟨b - a, by refine Prod.ext ?_ ?_ <;> simp only [linePt, mv] <;> ring⟩

theorem linePt_mv (r : Ineq2 K) (a t : K) : mv (linePt r a) (dirOf r) t = linePt r (a + t) := by
  refine Prod.ext ?_ ?_ <;> simp only [linePt, mv] <;> ring

theorem linePt_inj {r : Ineq2 K} (hN : dot2 r.1 r.1 ≠ 0) {a b : K} (h : linePt r a = linePt r b) : a = b := by
  by_contra hne
  refine mv_ne hN (linePt r a) (sub_ne_zero.2 (Ne.symm hne)) ?_
  rw [linePt_mv, add_sub_cancel, ← h]

theorem edge_gedge {S : List (Ineq2 K)} {e : Edge K} (h : IsEdgeOf 0 S e) {u v : K × K} (hu : e.start = some u)
    (hv : e.stop = some v) : ∃ r, S[e.row]? = some r ∧ GEdge S r u v := by
  have su := edge_ends_solve h u (Or.inl hu)
  have sv := edge_ends_solve h v (Or.inr hv)
  obtain ⟨r, lo, hi, hr, hN, h1, h2, ⟨t0, ht0⟩, hon⟩ := h
  rw [h1] at hu
  rw [h2] at hv
  cases lo with
  | none => cases hu
  | some l =>
      cases hi with
      | none => cases hv
      | some g =>
          injection hu with hu
          injection hv with hv
          rw [(C50_endpoints 0 r l).2] at hu
          rw [(C50_endpoints 0 r g).2] at hv
          subst hu hv
          have hlg : l ≤ g := (ht0.1 l rfl).trans (ht0.2 g rfl)
          have hmem := List.mem_of_getElem? hr
          have hrng : ∀ t, Sat2 S (linePt r t) → l ≤ t ∧ t ≤ g := by
            intro t ht
            obtain ⟨t', h3, h4⟩ := (hon (linePt r t)).1
              ⟨fun r' hr' => by
                rw [hr] at hr'; injection hr' with hr'; subst hr'
                exact (onLine_iff r hN _).2 ⟨t, rfl⟩, fun k s _ hs => ht s (List.mem_of_getElem? hs)⟩
            rw [linePt_inj hN h4]
            exact ⟨h3.1 l rfl, h3.2 g rfl⟩
          refine ⟨r, hr, hmem, hN, (onLine_iff r hN _).2 ⟨l, rfl⟩, su, sv, ⟨g - l, sub_nonneg.2 hlg, ?_⟩,
            fun t ht => ?_, fun t ht => ?_⟩
          · rw [linePt_mv, add_sub_cancel]
          · rw [linePt_mv] at ht
            linarith [(hrng _ ht).1]
          · rw [linePt_mv] at ht
            linarith [(hrng _ ht).2]

/-- A bounded set contains no ray. -/
theorem no_ray {P : K × K → Prop} (hb : BoundedSet P) {r : Ineq2 K} (hN : dot2 r.1 r.1 ≠ 0) {t0 : K}
    (h : (∀ M, 0 ≤ M → P (linePt r (t0 + M))) ∨ ∀ M, 0 ≤ M → P (linePt r (t0 - M))) : False := by
  obtain ⟨R, hR⟩ := hb
  have main : ∀ d x : K, d ≠ 0 → (∀ M, 0 ≤ M → |x + d * M| ≤ R) → False := by
    intro d x hd hM
    have h0 := hM 0 le_rfl
    rw [mul_zero, add_zero] at h0
    have hdp : 0 < |d| := abs_pos.2 hd
    have hR0 : 0 ≤ R := (abs_nonneg _).trans h0
    have h1 := hM ((2 * R + 1) / |d|) (div_nonneg (by linarith) hdp.le)
    have h2 : |d * ((2 * R + 1) / |d|)| = 2 * R + 1 := by
      rw [abs_mul, abs_div, abs_abs, abs_of_nonneg (show (0 : K) ≤ 2 * R + 1 by linarith)]
      field_simp
    have h3 := abs_sub_le (d * ((2 * R + 1) / |d|)) 0 (-x)
    have h4 : |d * ((2 * R + 1) / |d|)| ≤ |x + d * ((2 * R + 1) / |d|)| + |x| := by
      have := abs_sub (x + d * ((2 * R + 1) / |d|)) x
      rwa [add_sub_cancel_left] at this
    linarith
  have hcomp : (dirOf r).1 ≠ 0 ∨ (dirOf r).2 ≠ 0 := by
    by_contra hcon
    push Not at hcon
    simp only [dirOf, neg_eq_zero] at hcon
    exact hN (by simp [dot2, hcon.1, hcon.2])
  rcases h with h | h
  · rcases hcomp with hd | hd
    · refine main (dirOf r).1 (linePt r t0).1 hd fun M hM => ?_
      have := (hR _ (h M hM)).1
      convert this using 2
      simp only [linePt]; ring
    · refine main (dirOf r).2 (linePt r t0).2 hd fun M hM => ?_
      have := (hR _ (h M hM)).2
      convert this using 2
      simp only [linePt]; ring
  · rcases hcomp with hd | hd
    · refine main (-(dirOf r).1) (linePt r t0).1 (neg_ne_zero.2 hd) fun M hM => ?_
      have := (hR _ (h M hM)).1
      convert this using 2
      simp only [linePt]; ring
    · refine main (-(dirOf r).2) (linePt r t0).2 (neg_ne_zero.2 hd) fun M hM => ?_
      have := (hR _ (h M hM)).2
      convert this using 2
      simp only [linePt]; ring

theorem bounded_ends {S : List (Ineq2 K)} (hb : BoundedSet (Sat2 S)) {e : Edge K} (h : IsEdgeOf 0 S e) :
    ∃ u v, e.start = some u ∧ e.stop = some v := by
  obtain ⟨r, lo, hi, hr, hN, h1, h2, ⟨t0, ht0⟩, hon⟩ := h
  cases lo with
  | none =>
      refine (no_ray (t0 := t0) hb hN (Or.inr fun M hM => ?_)).elim
      refine sat2_of_onEdge ((hon _).2 ⟨_, ⟨fun l hl => (by cases hl), fun g hg => ?_⟩, rfl⟩)
      have := ht0.2 g hg
      linarith
  | some l =>
      cases hi with
      | none =>
          refine (no_ray (t0 := t0) hb hN (Or.inl fun M hM => ?_)).elim
          refine sat2_of_onEdge ((hon _).2 ⟨_, ⟨fun l hl => ?_, fun g hg => (by cases hg)⟩, rfl⟩)
          have := ht0.1 l hl
          linarith
      | some g => exact ⟨_, _, h1, h2⟩

theorem segsOf_some {E : List (Edge K)} (h : ∀ e ∈ E, ∃ u v, e.start = some u ∧ e.stop = some v) :
    ∃ segs, segsOf E = some segs ∧ segs.length = E.length ∧
      ∀ e ∈ E, ∀ u v, e.start = some u → e.stop = some v → (u, v) ∈ segs := by
  induction E with
  | nil => exact ⟨[], rfl, rfl, fun e he => by cases he⟩
  | cons e E ih =>
      obtain ⟨T, hT, hlen, hTm⟩ := ih fun e he => h e (List.mem_cons_of_mem _ he)
      obtain ⟨u, v, hu, hv⟩ := h e List.mem_cons_self
      refine ⟨(u, v) :: T, ?_, by simp [hlen], ?_⟩
      · unfold segsOf at hT ⊢
        rw [List.mapM_cons, hT]
        simp [hu, hv]
      · intro e' he' u' v' hu' hv'
        rcases List.mem_cons.1 he' with rfl | he'
        · rw [hu] at hu'; rw [hv] at hv'
          injection hu' with hu'; injection hv' with hv'
          subst hu' hv'
          exact List.mem_cons_self
        · exact List.mem_cons_of_mem _ (hTm e' he' u' v' hu' hv')

/-- The segments of a bounded set with interior points and separated vertices suit the path algorithm. -/
theorem pathOK_of_polygon {S : List (Ineq2 K)} (hS : ∀ r ∈ S, dot2 r.1 r.1 ≠ 0) {c : K × K} (hc : Interior S c)
    (hb : BoundedSet (Sat2 S)) (hsep : Separated (Sat2 S)) {E : List (Edge K)}
    (hE : boundaryIntervals 0 S = .ok (some E)) {segs : List (Seg K)} (hseg : segsOf E = some segs) :
    (∀ s ∈ segs, ∃ r, GEdge S r s.1 s.2) ∧ PathOK segs := by
  obtain ⟨hE1, hE2⟩ := C50_edges 0 S E hE
  have hg : ∀ s ∈ segs, ∃ r, GEdge S r s.1 s.2 := by
    intro s hs
    obtain ⟨e, he, h1, h2⟩ := segsOf_mem E segs hseg s hs
    obtain ⟨r, -, h3⟩ := edge_gedge (hE1 e he) h1 h2
    exact ⟨r, h3⟩
  have hends : ∀ e ∈ E, ∃ u v, e.start = some u ∧ e.stop = some v := fun e he => bounded_ends hb (hE1 e he)
  obtain ⟨segs', hseg', -, hm⟩ := segsOf_some hends
  rw [hseg] at hseg'
  injection hseg' with hseg'
  subst hseg'
  have hnext : ∀ s ∈ segs, ∃ s' ∈ segs, s'.1 = s.2 ∧ s'.2 ≠ s'.1 := by
    intro s hs
    obtain ⟨r, hr⟩ := hg s hs
    obtain ⟨k, hk, hkv, hlo, ε, hε, hst⟩ := next_edge hS hc hr
    obtain ⟨i, hi, hik⟩ := List.getElem_of_mem hk
    have hik' : S[i]? = some k := by rw [List.getElem?_eq_getElem hi, hik]
    obtain ⟨e, he, hrow⟩ := hE2 i s.2 hi ⟨fun r' hr' => by
      rw [hik'] at hr'; injection hr' with hr'; subst hr'; exact hkv,
      fun j t _ ht => hr.satv t (List.mem_of_getElem? ht)⟩
    obtain ⟨u, v, hu, hv⟩ := hends e he
    obtain ⟨r', hr', hge⟩ := edge_gedge (hE1 e he) hu hv
    rw [hrow, hik'] at hr'
    injection hr' with hr'
    subst hr'
    obtain ⟨t, ht⟩ := line_mv hge.nz hge.on hkv
    have h1 := hge.lo t (ht ▸ hr.satv)
    have hu' : u = mv s.2 (dirOf k) (-t) := by rw [ht, mv_mv, add_neg_cancel, mv_zero]
    have h2 := hlo (-t) (hu' ▸ hge.satu)
    have ht0 : t = 0 := by linarith
    rw [ht0, neg_zero, mv_zero] at hu'
    refine ⟨(u, v), hm e he u v hu hv, hu', fun hvu => ?_⟩
    dsimp only at hvu
    have h3 := hge.hi ε (by rw [hvu, hu']; exact hst)
    exact absurd h3 (not_le.2 hε)
  refine ⟨hg, ?_, hnext, ?_, ?_⟩
  · intro s hs s' hs' u hu v hv hne
    obtain ⟨r, hr⟩ := hg s hs
    obtain ⟨r', hr'⟩ := hg s' hs'
    have hu' : Extreme (Sat2 S) u := by
      simp only [List.mem_cons, List.not_mem_nil, or_false] at hu
      rcases hu with rfl | rfl
      · exact hr.extreme_start
      · exact hr.extreme_stop
    have hv' : Extreme (Sat2 S) v := by
      simp only [List.mem_cons, List.not_mem_nil, or_false] at hv
      rcases hv with rfl | rfl
      · exact hr'.extreme_start
      · exact hr'.extreme_stop
    exact hsep u v hu' hv' hne
  · intro s hs
    by_cases hne : s.2 = s.1
    · obtain ⟨s', hs', h1, h2⟩ := hnext s hs
      exact ⟨s', hs', h1.trans hne, h2⟩
    · exact ⟨s, hs, rfl, hne⟩
  · intro s hs s' hs' hne hne' he
    obtain ⟨r, hr⟩ := hg s hs
    obtain ⟨r', hr'⟩ := hg s' hs'
    exact prev_unique hc hr (he ▸ hr') hne (he ▸ hne')

/-- In a closed chain every element has a predecessor and a successor. -/
theorem cyc_links {α : Type*} {R : α → α → Prop} {D : List α} {bp : α} (h : (D ++ [bp]).IsChain R)
    (hh : D.head? = some bp) : ∀ q ∈ D, (∃ p ∈ D, R p q) ∧ ∃ w ∈ D, R q w := by
  have hbp : bp ∈ D := List.mem_of_mem_head? hh
  intro q hq
  obtain ⟨L, R', hD⟩ := List.append_of_mem hq
  constructor
  · rcases List.eq_nil_or_concat L with rfl | ⟨L', p, rfl⟩
    · have hqb : q = bp := by
        rw [hD] at hh
        simpa using hh
      rcases List.eq_nil_or_concat D with h0 | ⟨D', z, hz⟩
      · rw [h0] at hq; cases hq
      · rw [hz, List.concat_eq_append, List.append_assoc, List.singleton_append] at h
        refine ⟨z, by rw [hz]; simp, ?_⟩
        rw [hqb]
        exact (List.isChain_cons_cons.1 (List.isChain_append.1 h).2.1).1
    · rw [hD, List.concat_eq_append, List.append_assoc, List.append_assoc, List.singleton_append,
        List.cons_append] at h
      refine ⟨p, by rw [hD]; simp, ?_⟩
      exact (List.isChain_cons_cons.1 (List.isChain_append.1 h).2.1).1
  · cases R' with
    | nil =>
        rw [hD, List.append_assoc, List.singleton_append] at h
        exact ⟨bp, hbp, (List.isChain_cons_cons.1 (List.isChain_append.1 h).2.1).1⟩
    | cons b R' =>
        rw [hD, List.append_assoc, List.cons_append, List.cons_append] at h
        exact ⟨b, by rw [hD]; simp, (List.isChain_cons_cons.1 (List.isChain_append.1 h).2.1).1⟩

/-- `u` and `v` are the ends of a side of `P`: some linear function attains its minimum over `P` at both, and
the set lies to the right of the way from `u` to `v`. -/
def Side (P : K × K → Prop) (u v : K × K) : Prop :=
  ∃ a : K × K, dot2 a u = dot2 a v ∧ (∀ x, P x → dot2 a u ≤ dot2 a x) ∧
    0 < a.1 * (v.2 - u.2) - a.2 * (v.1 - u.1)

/-- `C` lists the vertices of `P`: each once, and, if there are several, in clockwise order along the
sides. -/
def VertexList (P : K × K → Prop) (C : List (K × K)) : Prop :=
  C.Nodup ∧ (∀ v, v ∈ C ↔ Extreme P v) ∧ (C.length ≠ 1 → (C ++ C.head?.toList).IsChain (Side P))

theorem GEdge.side {S : List (Ineq2 K)} {r : Ineq2 K} {u v : K × K} (h : GEdge S r u v) (hne : u ≠ v) :
    Side (Sat2 S) u v := by
  refine ⟨r.1, by rw [h.on, h.on'], fun x hx => h.on ▸ hx r h.mem, ?_⟩
  obtain ⟨τ, hτ, e⟩ := h.ends
  have hτp : 0 < τ := lt_of_le_of_ne hτ fun h0 => hne (by rw [e, ← h0, mv_zero])
  have hN : 0 < dot2 r.1 r.1 :=
    lt_of_le_of_ne (add_nonneg (mul_self_nonneg _) (mul_self_nonneg _)) h.nz.symm
  have : r.1.1 * (v.2 - u.2) - r.1.2 * (v.1 - u.1) = τ * dot2 r.1 r.1 := by
    rw [e]; simp only [mv, dirOf, dot2]; ring
  rw [this]
  exact mul_pos hτp hN

theorem firstOf_nodup {α : Type*} [DecidableEq α] (L : List α) (seen : List α) (h : L.Nodup)
    (hs : ∀ x ∈ L, x ∉ seen) (y : α) (hy : y ∈ L ∨ y ∈ seen) : firstOf id seen (L ++ [y]) = L := by
  induction L generalizing seen with
  | nil =>
      rcases hy with hy | hy
      · cases hy
      · simp [firstOf, hy]
  | cons a L ih =>
      rw [List.cons_append, firstOf, id, if_neg (hs a List.mem_cons_self)]
      congr 1
      obtain ⟨h1, h2⟩ := List.nodup_cons.1 h
      refine ih (a :: seen) h2 (fun x hx hmem => ?_) ?_
      · rcases List.mem_cons.1 hmem with rfl | hmem
        · exact h1 hx
        · exact hs x (List.mem_cons_of_mem _ hx) hmem
      · rcases hy with hy | hy
        · rcases List.mem_cons.1 hy with rfl | hy
          · exact Or.inr List.mem_cons_self
          · exact Or.inl hy
        · exact Or.inr (List.mem_cons_of_mem _ hy)

/-- Rounding of both coordinates to twelve decimals. -/
def round12 (p : K × K) : K × K := (around12 p.1, around12 p.2)

theorem round12_ne {u v : K × K} (h : 1 / 10 ^ 8 < maxDist u v) : round12 u ≠ round12 v := by
  intro he
  have h1 := congrArg Prod.fst he
  have h2 := congrArg Prod.snd he
  simp only [round12] at h1 h2
  have small : (1 : K) / 2 / 10 ^ 12 + 1 / 2 / 10 ^ 12 < 1 / 10 ^ 8 := by norm_num
  have key : ∀ x y : K, around12 x = around12 y → |x - y| < 1 / 10 ^ 8 := by
    intro x y hxy
    have a := around12_near x
    have b := around12_near y
    rw [hxy] at a
    have := abs_sub_le x (around12 y) y
    rw [abs_sub_comm x (around12 y)] at this
    linarith
  unfold maxDist at h
  rcases lt_max_iff.1 h with h | h
  · exact absurd (key _ _ h1) (not_lt.2 h.le)
  · exact absurd (key _ _ h2) (not_lt.2 h.le)

/-- The closed path through the points of `C`; a single point is not repeated. -/
def closePath {α : Type*} (C : List α) : List α := if C.length = 1 then C else C ++ C.head?.toList

theorem closePath_of_links {α : Type*} {R : α → α → Prop} {D : List α} {bp : α} (h : (D ++ [bp]).IsChain R)
    (hh : D.head? = some bp) (hR : ∀ a b, R a b → a ≠ b) : closePath D = D ++ [bp] := by
  unfold closePath
  rw [if_neg, hh]
  · rfl
  · intro h1
    obtain ⟨x, rfl⟩ := List.length_eq_one_iff.1 h1
    injection hh with hh
    subst hh
    exact hR _ _ (List.isChain_cons_cons.1 h).1 rfl

/-- The core of C81: the edges of a polygon with separated vertices are joined to the list of all its
vertices in order. -/
theorem polygon_finish {S : List (Ineq2 K)} (hS : ∀ r ∈ S, dot2 r.1 r.1 ≠ 0) (hne : S ≠ []) {c : K × K}
    (hc : Interior S c) (hb : BoundedSet (Sat2 S)) (hsep : Separated (Sat2 S)) :
    ∃ E, boundaryIntervals 0 S = .ok (some E) ∧ E ≠ [] ∧ (∀ e ∈ E, e.start.isSome) ∧
      ∃ C, VertexList (Sat2 S) C ∧ lineqsFinish (some E) = .ok (C.map round12) ∧
        ∃ segs, segsOf E = some segs ∧ intervals2Path segs = .ok (closePath C) := by
  have hsat : Sat2 S c := fun r hr => (hc r hr).le
  obtain ⟨o, ho⟩ := C50_total 0 S hS
  have hempty := C50_empty_iff 0 S hS hne
  cases o with
  | none => exact absurd hsat (hempty.1 (Or.inl ho) c)
  | some E =>
      have hE : E ≠ [] := by
        rintro rfl
        exact hempty.1 (Or.inr ho) c hsat
      obtain ⟨hE1, -⟩ := C50_edges 0 S E ho
      have hends : ∀ e ∈ E, ∃ u v, e.start = some u ∧ e.stop = some v := fun e he => bounded_ends hb (hE1 e he)
      obtain ⟨segs, hseg, hlen, -⟩ := segsOf_some hends
      obtain ⟨hg, hpath⟩ := pathOK_of_polygon hS hc hb hsep ho hseg
      cases segs with
      | nil => exact absurd (List.length_eq_zero_iff.1 hlen.symm) hE
      | cons s segs =>
          obtain ⟨D, hD, hchain, hnd, hhead⟩ := intervals2Path_spec hpath
          have hlink : ∀ u v, Link (s :: segs) u v → ∃ r, GEdge S r u v := fun u v h => hg (u, v) h.1
          have hcyc := cyc_links hchain hhead
          have hDext : ∀ q ∈ D, Extreme (Sat2 S) q := by
            intro q hq
            obtain ⟨⟨p, -, hp⟩, -⟩ := hcyc q hq
            obtain ⟨r, hr⟩ := hlink p q hp
            exact hr.extreme_stop
          have hbp : s.1 ∈ D := List.mem_of_mem_head? hhead
          refine ⟨E, ho, hE, fun e he => ?_, D, ⟨hnd, fun v => ⟨hDext v, fun hv => ?_⟩, ?_⟩, ?_, _, hseg,
            by rw [hD, closePath_of_links hchain hhead fun _ _ h => h.2]⟩
          · obtain ⟨u, v, hu, -⟩ := hends e he
            rw [hu]; rfl
          · obtain ⟨f, hf⟩ := extreme_exposed hv
            classical
            obtain ⟨q, hqD, hqmin⟩ := D.toFinset.exists_min_image (fun x => dot2 f x)
              ⟨s.1, List.mem_toFinset.2 hbp⟩
            rw [List.mem_toFinset] at hqD
            obtain ⟨⟨p, hp, hpl⟩, w, hw, hwl⟩ := hcyc q hqD
            obtain ⟨r, hr⟩ := hlink p q hpl
            obtain ⟨k, hk⟩ := hlink q w hwl
            have hmin := cone_min hc hr hk hpl.2 hwl.2 f (hqmin p (List.mem_toFinset.2 hp))
              (hqmin w (List.mem_toFinset.2 hw)) v hv.1
            rw [← hf q (hDext q hqD).1 hmin]
            exact hqD
          · intro _
            rw [hhead]
            refine hchain.imp fun u v h => ?_
            obtain ⟨r, hr⟩ := hlink u v h
            exact hr.side h.2
          · unfold lineqsFinish
            dsimp only
            rw [hseg]
            dsimp only
            rw [hD]
            show Except.ok _ = Except.ok _
            congr 1
            unfold uniquePts
            rw [List.map_append]
            refine firstOf_nodup _ [] ?_ (by simp) _ (Or.inl (List.mem_map_of_mem hbp))
            refine (List.nodup_map_iff_inj_on hnd).2 fun u hu v hv he => ?_
            by_contra huv
            exact round12_ne (hsep u v (hDext u hu) (hDext v hv) huv) he

/-! ## Unbounded sets -/

/-- At the start of an edge another edge ends, and this one has a positive length. -/
theorem prev_edge {S : List (Ineq2 K)} {c : K × K} (hc : Interior S c)
    {r : Ineq2 K} {v : K × K} (hr : r ∈ S) (hrv : dot2 r.1 v = r.2) (hsat : Sat2 S v)
    (hlo : ∀ t, Sat2 S (mv v (dirOf r) t) → 0 ≤ t) :
    ∃ k ∈ S, dot2 k.1 v = k.2 ∧ (∀ t, Sat2 S (mv v (dirOf k) t) → t ≤ 0) ∧
      ∃ ε, 0 < ε ∧ Sat2 S (mv v (dirOf k) (-ε)) := by
  classical
  set d : K × K := (c.1 - v.1, c.2 - v.2) with hd
  have hneg : ∀ (w e : K × K) (t : K), mv w (-e.1, -e.2) t = mv w e (-t) := by
    intro w e t
    refine Prod.ext ?_ ?_ <;> simp only [mv] <;> ring
  have hdneg : ∀ a e : K × K, dot2 a (-e.1, -e.2) = -dot2 a e := by
    intro a e; simp only [dot2]; ring
  have hpos : ∀ l ∈ S, dot2 l.1 v = l.2 → 0 < dot2 l.1 d := by
    intro l hl he
    have h1 := hc l hl
    have : dot2 l.1 d = dot2 l.1 c - dot2 l.1 v := by simp only [dot2, hd]; ring
    rw [this, he]
    linarith
  have hk0 : ∃ k0 ∈ S, dot2 k0.1 v = k0.2 ∧ 0 < dot2 k0.1 (dirOf r) := by
    by_contra hno
    push Not at hno
    obtain ⟨ε, hε, hst⟩ := small_move S v (-(dirOf r).1, -(dirOf r).2) hsat fun l hl he => by
      rw [hdneg]
      exact neg_nonneg.2 (hno l hl he)
    have h1 := hst ε hε.le le_rfl
    rw [hneg] at h1
    linarith [hlo _ h1]
  obtain ⟨k0, hk0, hk0v, hk0d⟩ := hk0
  let g : Ineq2 K → K := fun l => dot2 l.1 (-d.2, d.1) / dot2 l.1 d
  have hdd : ∀ k ∈ S, dot2 k.1 v = k.2 → 0 < dot2 d d := by
    intro k hk hv
    refine lt_of_le_of_ne (add_nonneg (mul_self_nonneg _) (mul_self_nonneg _)) fun h0 => ?_
    have h1 := hpos k hk hv
    have a : d.1 = 0 := by
      have := mul_self_nonneg d.1; have := mul_self_nonneg d.2
      simp only [dot2] at h0
      exact mul_self_eq_zero.1 (by linarith)
    have b : d.2 = 0 := by
      have := mul_self_nonneg d.1; have := mul_self_nonneg d.2
      simp only [dot2] at h0
      exact mul_self_eq_zero.1 (by linarith)
    simp [dot2, a, b] at h1
  have key : ∀ k l : Ineq2 K, dot2 l.1 (dirOf k) * dot2 d d
      = dot2 k.1 d * dot2 l.1 (-d.2, d.1) - dot2 k.1 (-d.2, d.1) * dot2 l.1 d := by
    intro k l; simp only [dot2, dirOf]; ring
  have hle : ∀ k ∈ S, dot2 k.1 v = k.2 → ∀ l ∈ S, dot2 l.1 v = l.2 → (g k ≤ g l ↔ 0 ≤ dot2 l.1 (dirOf k)) := by
    intro k hk hkv l hl hlv
    have h1 := hpos k hk hkv
    have h2 := hpos l hl hlv
    have h3 := hdd k hk hkv
    show _ / _ ≤ _ / _ ↔ _
    rw [div_le_div_iff₀ h1 h2, ← mul_nonneg_iff_of_pos_right h3, key k l]
    constructor <;> intro h <;> linarith
  let Act := (S.filter fun l => decide (dot2 l.1 v = l.2)).toFinset
  have hmemA : ∀ l, l ∈ Act ↔ l ∈ S ∧ dot2 l.1 v = l.2 := fun l => by simp [Act]
  obtain ⟨k, hkA, hkmax⟩ := Act.exists_max_image g ⟨k0, (hmemA k0).2 ⟨hk0, hk0v⟩⟩
  obtain ⟨hk, hkv⟩ := (hmemA k).1 hkA
  obtain ⟨ε, hε, hst⟩ := small_move S v (-(dirOf k).1, -(dirOf k).2) hsat fun l hl hlv => by
    rw [hdneg, dirCross, neg_neg]
    exact (hle l hl hlv k hk hkv).1 (hkmax l ((hmemA l).2 ⟨hl, hlv⟩))
  refine ⟨k, hk, hkv, fun t ht => ?_, ε, hε, by rw [← hneg]; exact hst ε hε.le le_rfl⟩
  have hlt : g r < g k := by
    refine lt_of_lt_of_le (not_le.1 fun hcon => ?_) (hkmax k0 ((hmemA k0).2 ⟨hk0, hk0v⟩))
    have := (hle k0 hk0 hk0v r hr hrv).1 hcon
    rw [dirCross] at this
    linarith
  have hX : dot2 r.1 (dirOf k) < 0 := by
    by_contra hcon
    exact absurd ((hle k hk hkv r hr hrv).2 (not_lt.1 hcon)) (not_le.2 hlt)
  have h5 := ht r hr
  rw [dot2_mv, hrv] at h5
  by_contra hneg
  have := mul_neg_of_pos_of_neg (not_le.1 hneg) hX
  linarith

/-- Two edges of positive length with the same start have the same end. -/
theorem next_unique {S : List (Ineq2 K)} {c : K × K} (hc : Interior S c) {k k' : Ineq2 K} {u v v' : K × K}
    (h : GEdge S k u v) (h' : GEdge S k' u v') (hne : u ≠ v) (hne' : u ≠ v') : v = v' := by
  obtain ⟨τ, hτ, e⟩ := h.ends
  obtain ⟨τ', hτ', e'⟩ := h'.ends
  have hτp : 0 < τ := lt_of_le_of_ne hτ fun h0 => hne (by rw [e, ← h0, mv_zero])
  have hτp' : 0 < τ' := lt_of_le_of_ne hτ' fun h0 => hne' (by rw [e', ← h0, mv_zero])
  have a : 0 ≤ dot2 k'.1 (dirOf k) := by
    have := h.satv k' h'.mem
    rw [e, dot2_mv, h'.on] at this
    by_contra hcon
    have := mul_neg_of_pos_of_neg hτp (not_le.1 hcon)
    linarith
  have b : 0 ≤ dot2 k.1 (dirOf k') := by
    have := h'.satv k h.mem
    rw [e', dot2_mv, h.on] at this
    by_contra hcon
    have := mul_neg_of_pos_of_neg hτp' (not_le.1 hcon)
    linarith
  have hz : dot2 k'.1 (dirOf k) = 0 := by
    have := dirCross k k'
    linarith
  have p : 0 < dot2 k.1 c - k.2 := sub_pos.2 (hc k h.mem)
  have p' : 0 < dot2 k'.1 c - k'.2 := sub_pos.2 (hc k' h'.mem)
  set l := dot2 k.1 c - k.2 with hl
  set l' := dot2 k'.1 c - k'.2 with hl'
  have hon := h.on
  have hon' := h'.on
  have f1 : l * k'.1.1 = l' * k.1.1 := by
    rw [hl, hl', ← hon, ← hon']
    simp only [dot2, dirOf] at hz ⊢
    linear_combination (-(c.2 - u.2)) * hz
  have f2 : l * k'.1.2 = l' * k.1.2 := by
    rw [hl, hl', ← hon, ← hon']
    simp only [dot2, dirOf] at hz ⊢
    linear_combination (c.1 - u.1) * hz
  have hdir : dirOf k' = ((l' / l) * (dirOf k).1, (l' / l) * (dirOf k).2) := by
    refine Prod.ext ?_ ?_ <;> simp only [dirOf] <;> field_simp <;> linarith
  have conv : ∀ w t, mv w (dirOf k') t = mv w (dirOf k) (t * (l' / l)) := by
    intro w t
    rw [hdir]
    refine Prod.ext ?_ ?_ <;> simp only [mv] <;> ring
  rw [conv] at e'
  have q1 : Sat2 S (mv v (dirOf k) (-τ + τ' * (l' / l))) := by
    have : mv v (dirOf k) (-τ + τ' * (l' / l)) = v' := by
      rw [e, mv_mv, e', add_neg_cancel_left]
    rw [this]; exact h'.satv
  have g1 := h.hi _ q1
  have q2 : Sat2 S (mv v' (dirOf k') (-τ' + τ * (l / l'))) := by
    have : mv v' (dirOf k') (-τ' + τ * (l / l')) = v := by
      rw [conv, e', mv_mv, e]
      congr 1
      field_simp
      ring
    rw [this]; exact h.satv
  have g2 := h'.hi _ q2
  have g3 : τ = τ' * (l' / l) := by
    apply le_antisymm
    · have := mul_le_mul_of_nonneg_right (show τ * (l / l') ≤ τ' by linarith) (div_nonneg p'.le p.le)
      have h7 : τ * (l / l') * (l' / l) = τ := by field_simp
      rwa [h7] at this
    · linarith
  rw [e, e', g3]

/-- A nonempty finite set of vertices closed under both edges at each vertex bounds the whole set. -/
theorem closed_bounds {S : List (Ineq2 K)} {c : K × K} (hc : Interior S c) (V : Finset (K × K)) (hV : V.Nonempty)
    (hcl : ∀ q ∈ V, (∃ p ∈ V, p ≠ q ∧ ∃ r, GEdge S r p q) ∧ ∃ w ∈ V, q ≠ w ∧ ∃ r, GEdge S r q w) :
    BoundedSet (Sat2 S) := by
  have main : ∀ f : K × K, ∃ m, ∀ x, Sat2 S x → m ≤ dot2 f x := by
    intro f
    obtain ⟨q, hq, hmin⟩ := V.exists_min_image (fun x => dot2 f x) hV
    obtain ⟨⟨p, hp, hpq, r, hr⟩, w, hw, hqw, k, hk⟩ := hcl q hq
    exact ⟨dot2 f q, fun x hx => cone_min hc hr hk hpq hqw f (hmin p hp) (hmin w hw) x hx⟩
  obtain ⟨m1, h1⟩ := main (1, 0)
  obtain ⟨m2, h2⟩ := main (-1, 0)
  obtain ⟨m3, h3⟩ := main (0, 1)
  obtain ⟨m4, h4⟩ := main (0, -1)
  refine ⟨max (max |m1| |m2|) (max |m3| |m4|), fun x hx => ?_⟩
  have a1 := h1 x hx
  have a2 := h2 x hx
  have a3 := h3 x hx
  have a4 := h4 x hx
  simp only [dot2, one_mul, zero_mul, add_zero, zero_add, neg_mul] at a1 a2 a3 a4
  have b1 := neg_abs_le m1
  have b2 := neg_abs_le m2
  have b3 := neg_abs_le m3
  have b4 := neg_abs_le m4
  have c1 := (le_max_left |m1| |m2|).trans (le_max_left _ (max |m3| |m4|))
  have c2 := (le_max_right |m1| |m2|).trans (le_max_left _ (max |m3| |m4|))
  have c3 := (le_max_left |m3| |m4|).trans (le_max_right (max |m1| |m2|) _)
  have c4 := (le_max_right |m3| |m4|).trans (le_max_right (max |m1| |m2|) _)
  constructor <;> rw [abs_le] <;> constructor <;> linarith

/-- The finite start of an edge is on its line, solves the system and is the lower end. -/
theorem edge_start_lo {S : List (Ineq2 K)} {e : Edge K} (h : IsEdgeOf 0 S e) {u : K × K} (hu : e.start = some u) :
    ∃ r, S[e.row]? = some r ∧ dot2 r.1 r.1 ≠ 0 ∧ dot2 r.1 u = r.2 ∧ Sat2 S u ∧
      ∀ t, Sat2 S (mv u (dirOf r) t) → 0 ≤ t := by
  have su := edge_ends_solve h u (Or.inl hu)
  obtain ⟨r, lo, hi, hr, hN, h1, h2, ⟨t0, ht0⟩, hon⟩ := h
  rw [h1] at hu
  cases lo with
  | none => cases hu
  | some l =>
      injection hu with hu
      rw [(C50_endpoints 0 r l).2] at hu
      subst hu
      refine ⟨r, hr, hN, (onLine_iff r hN _).2 ⟨l, rfl⟩, su, fun t ht => ?_⟩
      rw [linePt_mv] at ht
      obtain ⟨t', h3, h4⟩ := (hon (linePt r (l + t))).1
        ⟨fun r' hr' => by
          rw [hr] at hr'; injection hr' with hr'; subst hr'
          exact (onLine_iff r hN _).2 ⟨_, rfl⟩, fun k s _ hs => ht s (List.mem_of_getElem? hs)⟩
      rw [← linePt_inj hN h4] at h3
      linarith [h3.1 l rfl]

/-- An edge without a finite end reaches arbitrarily far. -/
theorem edge_stop_hi {S : List (Ineq2 K)} {e : Edge K} (h : IsEdgeOf 0 S e) {r : Ineq2 K}
    (hr : S[e.row]? = some r) {v : K × K} (hv : dot2 r.1 v = r.2) (hs : Sat2 S v)
    (hhi : ∀ t, Sat2 S (mv v (dirOf r) t) → t ≤ 0) : e.stop = some v := by
  obtain ⟨r', lo, hi, hr', hN, h1, h2, -, hon⟩ := h
  rw [hr] at hr'
  injection hr' with hr'
  subst hr'
  obtain ⟨t, ht, hvt⟩ := (hon v).1 ⟨fun r' hr' => by
    rw [hr] at hr'; injection hr' with hr'; subst hr'; exact hv,
    fun k s _ hk => hs s (List.mem_of_getElem? hk)⟩
  cases hi with
  | none =>
      exfalso
      have : Sat2 S (linePt r (t + 1)) := sat2_of_onEdge ((hon _).2 ⟨t + 1, ⟨fun l hl => by
        have := ht.1 l hl; linarith, fun g hg => (by cases hg)⟩, rfl⟩)
      rw [← linePt_mv, ← hvt] at this
      linarith [hhi 1 this]
  | some g =>
      have hg := ht.2 g rfl
      have : Sat2 S (linePt r g) := sat2_of_onEdge ((hon _).2 ⟨g, ⟨fun l hl => (ht.1 l hl).trans hg,
        fun g' hg' => by injection hg' with hg'; exact hg'.le⟩, rfl⟩)
      have h3 : linePt r g = mv v (dirOf r) (g - t) := by rw [hvt, linePt_mv, add_sub_cancel]
      rw [h3] at this
      have h4 : g = t := by linarith [hhi _ this]
      rw [h2, Option.map_some, (C50_endpoints 0 r g).2, h4, ← hvt]

/-- If all edges have a finite start, the set is bounded. -/
theorem bounded_of_starts {S : List (Ineq2 K)} {c : K × K} (hc : Interior S c) {E : List (Edge K)}
    (hE : boundaryIntervals 0 S = .ok (some E)) (hE0 : E ≠ []) (hst : ∀ e ∈ E, e.start.isSome) :
    BoundedSet (Sat2 S) := by
  classical
  obtain ⟨hE1, hE2⟩ := C50_edges 0 S E hE
  let V : Finset (K × K) := (E.filterMap fun e => e.start).toFinset
  have hmemV : ∀ v, v ∈ V ↔ ∃ e ∈ E, e.start = some v := fun v => by simp [V]
  obtain ⟨e0, he0⟩ := List.exists_mem_of_ne_nil E hE0
  obtain ⟨v0, hv0⟩ := Option.isSome_iff_exists.1 (hst e0 he0)
  have hpred : ∀ v ∈ V, ∃ p ∈ V, p ≠ v ∧ ∃ r, GEdge S r p v := by
    intro v hv
    obtain ⟨e, he, hev⟩ := (hmemV v).1 hv
    obtain ⟨r, hr, hN, hon, hsat, hlo⟩ := edge_start_lo (hE1 e he) hev
    obtain ⟨k, hk, hkv, hhi, ε, hε, hs⟩ := prev_edge hc (List.mem_of_getElem? hr) hon hsat hlo
    obtain ⟨i, hi, hik⟩ := List.getElem_of_mem hk
    have hik' : S[i]? = some k := by rw [List.getElem?_eq_getElem hi, hik]
    obtain ⟨e', he', hrow⟩ := hE2 i v hi ⟨fun r' hr' => by
      rw [hik'] at hr'; injection hr' with hr'; subst hr'; exact hkv,
      fun j t _ ht => hsat t (List.mem_of_getElem? ht)⟩
    have hstop := edge_stop_hi (hE1 e' he') (by rw [hrow, hik']) hkv hsat hhi
    obtain ⟨u, hu⟩ := Option.isSome_iff_exists.1 (hst e' he')
    obtain ⟨r', hr', hge⟩ := edge_gedge (hE1 e' he') hu hstop
    rw [hrow, hik'] at hr'
    injection hr' with hr'
    subst hr'
    refine ⟨u, (hmemV u).2 ⟨e', he', hu⟩, fun huv => ?_, k, hge⟩
    have := hge.lo (-ε) (by rw [huv]; exact hs)
    linarith
  choose! π hπV hπne hπe using hpred
  have hinj : Set.InjOn π V := by
    intro v hv w hw hvw
    obtain ⟨r, hr⟩ := hπe v hv
    obtain ⟨k, hk⟩ := hπe w hw
    rw [← hvw] at hk
    exact next_unique hc hr hk (hπne v hv) (by rw [hvw]; exact hπne w hw)
  have hsurj := Finset.surj_on_of_inj_on_of_card_le (s := V) (t := V) (fun a _ => π a) (fun a ha => hπV a ha)
    (fun a b ha hb h => hinj ha hb h) le_rfl
  refine closed_bounds hc V ⟨v0, (hmemV v0).2 ⟨e0, he0, hv0⟩⟩ fun q hq => ⟨⟨π q, hπV q hq, hπne q hq, hπe q hq⟩, ?_⟩
  obtain ⟨w, hw, hqw⟩ := hsurj q hq
  exact ⟨w, hw, by rw [hqw]; exact hπne w hw, by rw [hqw]; exact hπe w hw⟩

end IntvalPy
