import Verif.PropsKaucher

/-!
# Associativity of the product of Kaucher's arithmetic

The formula of /repo/intvalpy/kernel/interval_arithmetics.pyx:568-571 (`Iv.kInf`, `Iv.kSup` with maxima) by the signs of
the ends.
-/

set_option autoImplicit false
set_option linter.unusedSectionVars false
set_option linter.unusedSimpArgs false

namespace IntvalPy
open Spec

variable {K : Type*} [Field K] [LinearOrder K] [IsStrictOrderedRing K]

/-- The lower end of `[a, b] * [c, d]`; the upper end is `kaLo b a d c`. -/
def kaLo (a b c d : K) : K :=
  max (Iv.plus a * Iv.plus c) (Iv.minus b * Iv.minus d) - max (Iv.plus b * Iv.minus c) (Iv.minus a * Iv.plus d)

theorem kaLo_neg_left (a b c d : K) : kaLo (-a) (-b) c d = -kaLo a b d c := by
  unfold kaLo
  rw [plus_neg, plus_neg, minus_neg, minus_neg, neg_sub]
  simp only [max_comm]

theorem kaLo_neg_right (a b c d : K) : kaLo a b (-c) (-d) = -kaLo b a c d := by
  unfold kaLo
  rw [plus_neg, plus_neg, minus_neg, minus_neg, neg_sub]

def TP (a b : K) : Prop := 0 ≤ a ∧ 0 ≤ b
def TZ (a b : K) : Prop := a ≤ 0 ∧ 0 ≤ b
def TT (a b : K) : Prop := 0 ≤ a ∧ b ≤ 0

theorem lo_PP {a b c d : K} (h1 : TP a b) (h2 : TP c d) : kaLo a b c d = a * c := by
  unfold kaLo
  rw [plus_of_nonneg h1.1, plus_of_nonneg h1.2, minus_of_nonneg h1.1, minus_of_nonneg h1.2, plus_of_nonneg h2.1,
    plus_of_nonneg h2.2, minus_of_nonneg h2.1, minus_of_nonneg h2.2]
  simp [mul_nonneg h1.1 h2.1]

theorem lo_PZ {a b c d : K} (h1 : TP a b) (h2 : TZ c d) : kaLo a b c d = b * c := by
  unfold kaLo
  rw [plus_of_nonneg h1.1, plus_of_nonneg h1.2, minus_of_nonneg h1.1, minus_of_nonneg h1.2, plus_of_nonpos h2.1,
    plus_of_nonneg h2.2, minus_of_nonpos h2.1, minus_of_nonneg h2.2]
  have := mul_nonpos_of_nonneg_of_nonpos h1.2 h2.1
  simp [this]

theorem lo_PT {a b c d : K} (h1 : TP a b) (h2 : TT c d) : kaLo a b c d = a * c := by
  unfold kaLo
  rw [plus_of_nonneg h1.1, plus_of_nonneg h1.2, minus_of_nonneg h1.1, minus_of_nonneg h1.2, plus_of_nonneg h2.1,
    plus_of_nonpos h2.2, minus_of_nonneg h2.1, minus_of_nonpos h2.2]
  simp [mul_nonneg h1.1 h2.1]

theorem kaLo_comm (a b c d : K) : kaLo a b c d = kaLo c d a b := by
  unfold kaLo
  simp only [mul_comm, max_comm]

theorem lo_ZZ {a b c d : K} (h1 : TZ a b) (h2 : TZ c d) : kaLo a b c d = min (a * d) (b * c) := by
  unfold kaLo
  rw [plus_of_nonpos h1.1, plus_of_nonneg h1.2, minus_of_nonpos h1.1, minus_of_nonneg h1.2, plus_of_nonpos h2.1,
    plus_of_nonneg h2.2, minus_of_nonpos h2.1, minus_of_nonneg h2.2]
  simp [max_neg_neg, min_comm]

theorem lo_TT {a b c d : K} (h1 : TT a b) (h2 : TT c d) : kaLo a b c d = max (a * c) (b * d) := by
  unfold kaLo
  rw [plus_of_nonneg h1.1, plus_of_nonpos h1.2, minus_of_nonneg h1.1, minus_of_nonpos h1.2, plus_of_nonneg h2.1,
    plus_of_nonpos h2.2, minus_of_nonneg h2.1, minus_of_nonpos h2.2]
  simp

theorem lo_ZT {a b c d : K} (h1 : TZ a b) (h2 : TT c d) : kaLo a b c d = 0 := by
  unfold kaLo
  rw [plus_of_nonpos h1.1, plus_of_nonneg h1.2, minus_of_nonpos h1.1, minus_of_nonneg h1.2, plus_of_nonneg h2.1,
    plus_of_nonpos h2.2, minus_of_nonneg h2.1, minus_of_nonpos h2.2]
  simp

theorem TP.sw {a b : K} (h : TP a b) : TP b a := ⟨h.2, h.1⟩
theorem TZ.sw {a b : K} (h : TZ a b) : TT b a := ⟨h.2, h.1⟩
theorem TT.sw {a b : K} (h : TT a b) : TZ b a := ⟨h.2, h.1⟩

theorem kPP {a b c d : K} (h1 : TP a b) (h2 : TP c d) :
    kaLo a b c d = a * c ∧ kaLo b a d c = b * d ∧ TP (a * c) (b * d) :=
  ⟨lo_PP h1 h2, lo_PP h1.sw h2.sw, mul_nonneg h1.1 h2.1, mul_nonneg h1.2 h2.2⟩

theorem kPZ {a b c d : K} (h1 : TP a b) (h2 : TZ c d) :
    kaLo a b c d = b * c ∧ kaLo b a d c = b * d ∧ TZ (b * c) (b * d) :=
  ⟨lo_PZ h1 h2, lo_PT h1.sw h2.sw, mul_nonpos_of_nonneg_of_nonpos h1.2 h2.1, mul_nonneg h1.2 h2.2⟩

theorem kPT {a b c d : K} (h1 : TP a b) (h2 : TT c d) :
    kaLo a b c d = a * c ∧ kaLo b a d c = a * d ∧ TT (a * c) (a * d) :=
  ⟨lo_PT h1 h2, lo_PZ h1.sw h2.sw, mul_nonneg h1.1 h2.1, mul_nonpos_of_nonneg_of_nonpos h1.1 h2.2⟩

theorem kZP {a b c d : K} (h1 : TZ a b) (h2 : TP c d) :
    kaLo a b c d = d * a ∧ kaLo b a d c = d * b ∧ TZ (d * a) (d * b) := by
  rw [kaLo_comm a, kaLo_comm b]; exact kPZ h2 h1

theorem kTP {a b c d : K} (h1 : TT a b) (h2 : TP c d) :
    kaLo a b c d = c * a ∧ kaLo b a d c = c * b ∧ TT (c * a) (c * b) := by
  rw [kaLo_comm a, kaLo_comm b]; exact kPT h2 h1

theorem kZZ {a b c d : K} (h1 : TZ a b) (h2 : TZ c d) :
    kaLo a b c d = min (a * d) (b * c) ∧ kaLo b a d c = max (b * d) (a * c) ∧
      TZ (min (a * d) (b * c)) (max (b * d) (a * c)) :=
  ⟨lo_ZZ h1 h2, lo_TT h1.sw h2.sw, (min_le_left _ _).trans (mul_nonpos_of_nonpos_of_nonneg h1.1 h2.2),
    (mul_nonneg h1.2 h2.2).trans (le_max_left _ _)⟩

theorem kTT {a b c d : K} (h1 : TT a b) (h2 : TT c d) :
    kaLo a b c d = max (a * c) (b * d) ∧ kaLo b a d c = min (b * c) (a * d) ∧
      TT (max (a * c) (b * d)) (min (b * c) (a * d)) :=
  ⟨lo_TT h1 h2, lo_ZZ h1.sw h2.sw, (mul_nonneg h1.1 h2.1).trans (le_max_left _ _),
    (min_le_left _ _).trans (mul_nonpos_of_nonpos_of_nonneg h1.2 h2.1)⟩

theorem kZT {a b c d : K} (h1 : TZ a b) (h2 : TT c d) : kaLo a b c d = 0 ∧ kaLo b a d c = 0 ∧ TP (0 : K) 0 :=
  ⟨lo_ZT h1 h2, by rw [kaLo_comm]; exact lo_ZT h2.sw h1.sw, le_refl _, le_refl _⟩

theorem kTZ {a b c d : K} (h1 : TT a b) (h2 : TZ c d) : kaLo a b c d = 0 ∧ kaLo b a d c = 0 ∧ TP (0 : K) 0 := by
  rw [kaLo_comm a, kaLo_comm b]; exact kZT h2 h1

theorem mul_max_np {t : K} (h : t ≤ 0) (u v : K) : t * max u v = min (t * u) (t * v) := by
  rcases le_total u v with h' | h'
  · rw [max_eq_right h', min_eq_right (mul_le_mul_of_nonpos_left h' h)]
  · rw [max_eq_left h', min_eq_left (mul_le_mul_of_nonpos_left h' h)]

theorem mul_min_np {t : K} (h : t ≤ 0) (u v : K) : t * min u v = max (t * u) (t * v) := by
  rcases le_total u v with h' | h'
  · rw [min_eq_left h', max_eq_left (mul_le_mul_of_nonpos_left h' h)]
  · rw [min_eq_right h', max_eq_right (mul_le_mul_of_nonpos_left h' h)]

theorem mul_max_nn {t : K} (h : 0 ≤ t) (u v : K) : t * max u v = max (t * u) (t * v) := mul_max_of_nonneg u v h
theorem mul_min_nn {t : K} (h : 0 ≤ t) (u v : K) : t * min u v = min (t * u) (t * v) := mul_min_of_nonneg u v h

theorem max_mul_np {t : K} (h : t ≤ 0) (u v : K) : max u v * t = min (u * t) (v * t) := by
  rw [mul_comm, mul_max_np h, mul_comm t, mul_comm t]
theorem min_mul_np {t : K} (h : t ≤ 0) (u v : K) : min u v * t = max (u * t) (v * t) := by
  rw [mul_comm, mul_min_np h, mul_comm t, mul_comm t]
theorem max_mul_nn {t : K} (h : 0 ≤ t) (u v : K) : max u v * t = max (u * t) (v * t) := max_mul_of_nonneg u v h
theorem min_mul_nn {t : K} (h : 0 ≤ t) (u v : K) : min u v * t = min (u * t) (v * t) := min_mul_of_nonneg u v h

local macro "k_dist" "[" ts:Lean.Parser.Tactic.simpLemma,* "]" : tactic =>
  `(tactic| first
    | done
    | ring1
    | try simp only [mul_zero, zero_mul, mul_max_np, mul_min_np, mul_max_nn, mul_min_nn, max_mul_np, min_mul_np, max_mul_nn,
        min_mul_nn, $ts,*]
      try simp only [mul_assoc, mul_comm, mul_left_comm, min_assoc, min_comm, min_left_comm, max_assoc, max_comm,
        max_left_comm])

theorem kaLo_assoc_PPP (a b c d e f : K) (h1 : TP a b) (h2 : TP c d) (h3 : TP e f) :
    kaLo (kaLo a b c d) (kaLo b a d c) e f = kaLo a b (kaLo c d e f) (kaLo d c f e) := by
  obtain ⟨p1, p2, p3⟩ := kPP h1 h2
  obtain ⟨q1, q2, q3⟩ := kPP h2 h3
  rw [p1, p2, q1, q2, (kPP p3 h3).1, (kPP h1 q3).1]
  all_goals k_dist [h1.1, h1.2, h2.1, h2.2, h3.1, h3.2]

theorem kaLo_assoc_PPZ (a b c d e f : K) (h1 : TP a b) (h2 : TP c d) (h3 : TZ e f) :
    kaLo (kaLo a b c d) (kaLo b a d c) e f = kaLo a b (kaLo c d e f) (kaLo d c f e) := by
  obtain ⟨p1, p2, p3⟩ := kPP h1 h2
  obtain ⟨q1, q2, q3⟩ := kPZ h2 h3
  rw [p1, p2, q1, q2, (kPZ p3 h3).1, (kPZ h1 q3).1]
  all_goals k_dist [h1.1, h1.2, h2.1, h2.2, h3.1, h3.2]

theorem kaLo_assoc_PPT (a b c d e f : K) (h1 : TP a b) (h2 : TP c d) (h3 : TT e f) :
    kaLo (kaLo a b c d) (kaLo b a d c) e f = kaLo a b (kaLo c d e f) (kaLo d c f e) := by
  obtain ⟨p1, p2, p3⟩ := kPP h1 h2
  obtain ⟨q1, q2, q3⟩ := kPT h2 h3
  rw [p1, p2, q1, q2, (kPT p3 h3).1, (kPT h1 q3).1]
  all_goals k_dist [h1.1, h1.2, h2.1, h2.2, h3.1, h3.2]

theorem kaLo_assoc_PZP (a b c d e f : K) (h1 : TP a b) (h2 : TZ c d) (h3 : TP e f) :
    kaLo (kaLo a b c d) (kaLo b a d c) e f = kaLo a b (kaLo c d e f) (kaLo d c f e) := by
  obtain ⟨p1, p2, p3⟩ := kPZ h1 h2
  obtain ⟨q1, q2, q3⟩ := kZP h2 h3
  rw [p1, p2, q1, q2, (kZP p3 h3).1, (kPZ h1 q3).1]
  all_goals k_dist [h1.1, h1.2, h2.1, h2.2, h3.1, h3.2]

theorem kaLo_assoc_PZZ (a b c d e f : K) (h1 : TP a b) (h2 : TZ c d) (h3 : TZ e f) :
    kaLo (kaLo a b c d) (kaLo b a d c) e f = kaLo a b (kaLo c d e f) (kaLo d c f e) := by
  obtain ⟨p1, p2, p3⟩ := kPZ h1 h2
  obtain ⟨q1, q2, q3⟩ := kZZ h2 h3
  rw [p1, p2, q1, q2, (kZZ p3 h3).1, (kPZ h1 q3).1]
  all_goals k_dist [h1.1, h1.2, h2.1, h2.2, h3.1, h3.2]

theorem kaLo_assoc_PZT (a b c d e f : K) (h1 : TP a b) (h2 : TZ c d) (h3 : TT e f) :
    kaLo (kaLo a b c d) (kaLo b a d c) e f = kaLo a b (kaLo c d e f) (kaLo d c f e) := by
  obtain ⟨p1, p2, p3⟩ := kPZ h1 h2
  obtain ⟨q1, q2, q3⟩ := kZT h2 h3
  rw [p1, p2, q1, q2, (kZT p3 h3).1, (kPP h1 q3).1]
  all_goals k_dist [h1.1, h1.2, h2.1, h2.2, h3.1, h3.2]

theorem kaLo_assoc_PTP (a b c d e f : K) (h1 : TP a b) (h2 : TT c d) (h3 : TP e f) :
    kaLo (kaLo a b c d) (kaLo b a d c) e f = kaLo a b (kaLo c d e f) (kaLo d c f e) := by
  obtain ⟨p1, p2, p3⟩ := kPT h1 h2
  obtain ⟨q1, q2, q3⟩ := kTP h2 h3
  rw [p1, p2, q1, q2, (kTP p3 h3).1, (kPT h1 q3).1]
  all_goals k_dist [h1.1, h1.2, h2.1, h2.2, h3.1, h3.2]

theorem kaLo_assoc_PTZ (a b c d e f : K) (h1 : TP a b) (h2 : TT c d) (h3 : TZ e f) :
    kaLo (kaLo a b c d) (kaLo b a d c) e f = kaLo a b (kaLo c d e f) (kaLo d c f e) := by
  obtain ⟨p1, p2, p3⟩ := kPT h1 h2
  obtain ⟨q1, q2, q3⟩ := kTZ h2 h3
  rw [p1, p2, q1, q2, (kTZ p3 h3).1, (kPP h1 q3).1]
  all_goals k_dist [h1.1, h1.2, h2.1, h2.2, h3.1, h3.2]

theorem kaLo_assoc_PTT (a b c d e f : K) (h1 : TP a b) (h2 : TT c d) (h3 : TT e f) :
    kaLo (kaLo a b c d) (kaLo b a d c) e f = kaLo a b (kaLo c d e f) (kaLo d c f e) := by
  obtain ⟨p1, p2, p3⟩ := kPT h1 h2
  obtain ⟨q1, q2, q3⟩ := kTT h2 h3
  rw [p1, p2, q1, q2, (kTT p3 h3).1, (kPT h1 q3).1]
  all_goals k_dist [h1.1, h1.2, h2.1, h2.2, h3.1, h3.2]

theorem kaLo_assoc_ZPP (a b c d e f : K) (h1 : TZ a b) (h2 : TP c d) (h3 : TP e f) :
    kaLo (kaLo a b c d) (kaLo b a d c) e f = kaLo a b (kaLo c d e f) (kaLo d c f e) := by
  obtain ⟨p1, p2, p3⟩ := kZP h1 h2
  obtain ⟨q1, q2, q3⟩ := kPP h2 h3
  rw [p1, p2, q1, q2, (kZP p3 h3).1, (kZP h1 q3).1]
  all_goals k_dist [h1.1, h1.2, h2.1, h2.2, h3.1, h3.2]

theorem kaLo_assoc_ZPZ (a b c d e f : K) (h1 : TZ a b) (h2 : TP c d) (h3 : TZ e f) :
    kaLo (kaLo a b c d) (kaLo b a d c) e f = kaLo a b (kaLo c d e f) (kaLo d c f e) := by
  obtain ⟨p1, p2, p3⟩ := kZP h1 h2
  obtain ⟨q1, q2, q3⟩ := kPZ h2 h3
  rw [p1, p2, q1, q2, (kZZ p3 h3).1, (kZZ h1 q3).1]
  all_goals k_dist [h1.1, h1.2, h2.1, h2.2, h3.1, h3.2]

theorem kaLo_assoc_ZPT (a b c d e f : K) (h1 : TZ a b) (h2 : TP c d) (h3 : TT e f) :
    kaLo (kaLo a b c d) (kaLo b a d c) e f = kaLo a b (kaLo c d e f) (kaLo d c f e) := by
  obtain ⟨p1, p2, p3⟩ := kZP h1 h2
  obtain ⟨q1, q2, q3⟩ := kPT h2 h3
  rw [p1, p2, q1, q2, (kZT p3 h3).1, (kZT h1 q3).1]
  all_goals k_dist [h1.1, h1.2, h2.1, h2.2, h3.1, h3.2]

theorem kaLo_assoc_ZZP (a b c d e f : K) (h1 : TZ a b) (h2 : TZ c d) (h3 : TP e f) :
    kaLo (kaLo a b c d) (kaLo b a d c) e f = kaLo a b (kaLo c d e f) (kaLo d c f e) := by
  obtain ⟨p1, p2, p3⟩ := kZZ h1 h2
  obtain ⟨q1, q2, q3⟩ := kZP h2 h3
  rw [p1, p2, q1, q2, (kZP p3 h3).1, (kZZ h1 q3).1]
  all_goals k_dist [h1.1, h1.2, h2.1, h2.2, h3.1, h3.2]

theorem kaLo_assoc_ZZZ (a b c d e f : K) (h1 : TZ a b) (h2 : TZ c d) (h3 : TZ e f) :
    kaLo (kaLo a b c d) (kaLo b a d c) e f = kaLo a b (kaLo c d e f) (kaLo d c f e) := by
  obtain ⟨p1, p2, p3⟩ := kZZ h1 h2
  obtain ⟨q1, q2, q3⟩ := kZZ h2 h3
  rw [p1, p2, q1, q2, (kZZ p3 h3).1, (kZZ h1 q3).1]
  all_goals k_dist [h1.1, h1.2, h2.1, h2.2, h3.1, h3.2]

theorem kaLo_assoc_ZZT (a b c d e f : K) (h1 : TZ a b) (h2 : TZ c d) (h3 : TT e f) :
    kaLo (kaLo a b c d) (kaLo b a d c) e f = kaLo a b (kaLo c d e f) (kaLo d c f e) := by
  obtain ⟨p1, p2, p3⟩ := kZZ h1 h2
  obtain ⟨q1, q2, q3⟩ := kZT h2 h3
  rw [p1, p2, q1, q2, (kZT p3 h3).1, (kZP h1 q3).1]
  all_goals k_dist [h1.1, h1.2, h2.1, h2.2, h3.1, h3.2]

theorem kaLo_assoc_ZTP (a b c d e f : K) (h1 : TZ a b) (h2 : TT c d) (h3 : TP e f) :
    kaLo (kaLo a b c d) (kaLo b a d c) e f = kaLo a b (kaLo c d e f) (kaLo d c f e) := by
  obtain ⟨p1, p2, p3⟩ := kZT h1 h2
  obtain ⟨q1, q2, q3⟩ := kTP h2 h3
  rw [p1, p2, q1, q2, (kPP p3 h3).1, (kZT h1 q3).1]
  all_goals k_dist [h1.1, h1.2, h2.1, h2.2, h3.1, h3.2]

theorem kaLo_assoc_ZTZ (a b c d e f : K) (h1 : TZ a b) (h2 : TT c d) (h3 : TZ e f) :
    kaLo (kaLo a b c d) (kaLo b a d c) e f = kaLo a b (kaLo c d e f) (kaLo d c f e) := by
  obtain ⟨p1, p2, p3⟩ := kZT h1 h2
  obtain ⟨q1, q2, q3⟩ := kTZ h2 h3
  rw [p1, p2, q1, q2, (kPZ p3 h3).1, (kZP h1 q3).1]
  all_goals k_dist [h1.1, h1.2, h2.1, h2.2, h3.1, h3.2]

theorem kaLo_assoc_ZTT (a b c d e f : K) (h1 : TZ a b) (h2 : TT c d) (h3 : TT e f) :
    kaLo (kaLo a b c d) (kaLo b a d c) e f = kaLo a b (kaLo c d e f) (kaLo d c f e) := by
  obtain ⟨p1, p2, p3⟩ := kZT h1 h2
  obtain ⟨q1, q2, q3⟩ := kTT h2 h3
  rw [p1, p2, q1, q2, (kPT p3 h3).1, (kZT h1 q3).1]
  all_goals k_dist [h1.1, h1.2, h2.1, h2.2, h3.1, h3.2]

theorem kaLo_assoc_TPP (a b c d e f : K) (h1 : TT a b) (h2 : TP c d) (h3 : TP e f) :
    kaLo (kaLo a b c d) (kaLo b a d c) e f = kaLo a b (kaLo c d e f) (kaLo d c f e) := by
  obtain ⟨p1, p2, p3⟩ := kTP h1 h2
  obtain ⟨q1, q2, q3⟩ := kPP h2 h3
  rw [p1, p2, q1, q2, (kTP p3 h3).1, (kTP h1 q3).1]
  all_goals k_dist [h1.1, h1.2, h2.1, h2.2, h3.1, h3.2]

theorem kaLo_assoc_TPZ (a b c d e f : K) (h1 : TT a b) (h2 : TP c d) (h3 : TZ e f) :
    kaLo (kaLo a b c d) (kaLo b a d c) e f = kaLo a b (kaLo c d e f) (kaLo d c f e) := by
  obtain ⟨p1, p2, p3⟩ := kTP h1 h2
  obtain ⟨q1, q2, q3⟩ := kPZ h2 h3
  rw [p1, p2, q1, q2, (kTZ p3 h3).1, (kTZ h1 q3).1]
  all_goals k_dist [h1.1, h1.2, h2.1, h2.2, h3.1, h3.2]

theorem kaLo_assoc_TPT (a b c d e f : K) (h1 : TT a b) (h2 : TP c d) (h3 : TT e f) :
    kaLo (kaLo a b c d) (kaLo b a d c) e f = kaLo a b (kaLo c d e f) (kaLo d c f e) := by
  obtain ⟨p1, p2, p3⟩ := kTP h1 h2
  obtain ⟨q1, q2, q3⟩ := kPT h2 h3
  rw [p1, p2, q1, q2, (kTT p3 h3).1, (kTT h1 q3).1]
  all_goals k_dist [h1.1, h1.2, h2.1, h2.2, h3.1, h3.2]

theorem kaLo_assoc_TZP (a b c d e f : K) (h1 : TT a b) (h2 : TZ c d) (h3 : TP e f) :
    kaLo (kaLo a b c d) (kaLo b a d c) e f = kaLo a b (kaLo c d e f) (kaLo d c f e) := by
  obtain ⟨p1, p2, p3⟩ := kTZ h1 h2
  obtain ⟨q1, q2, q3⟩ := kZP h2 h3
  rw [p1, p2, q1, q2, (kPP p3 h3).1, (kTZ h1 q3).1]
  all_goals k_dist [h1.1, h1.2, h2.1, h2.2, h3.1, h3.2]

theorem kaLo_assoc_TZZ (a b c d e f : K) (h1 : TT a b) (h2 : TZ c d) (h3 : TZ e f) :
    kaLo (kaLo a b c d) (kaLo b a d c) e f = kaLo a b (kaLo c d e f) (kaLo d c f e) := by
  obtain ⟨p1, p2, p3⟩ := kTZ h1 h2
  obtain ⟨q1, q2, q3⟩ := kZZ h2 h3
  rw [p1, p2, q1, q2, (kPZ p3 h3).1, (kTZ h1 q3).1]
  all_goals k_dist [h1.1, h1.2, h2.1, h2.2, h3.1, h3.2]

theorem kaLo_assoc_TZT (a b c d e f : K) (h1 : TT a b) (h2 : TZ c d) (h3 : TT e f) :
    kaLo (kaLo a b c d) (kaLo b a d c) e f = kaLo a b (kaLo c d e f) (kaLo d c f e) := by
  obtain ⟨p1, p2, p3⟩ := kTZ h1 h2
  obtain ⟨q1, q2, q3⟩ := kZT h2 h3
  rw [p1, p2, q1, q2, (kPT p3 h3).1, (kTP h1 q3).1]
  all_goals k_dist [h1.1, h1.2, h2.1, h2.2, h3.1, h3.2]

theorem kaLo_assoc_TTP (a b c d e f : K) (h1 : TT a b) (h2 : TT c d) (h3 : TP e f) :
    kaLo (kaLo a b c d) (kaLo b a d c) e f = kaLo a b (kaLo c d e f) (kaLo d c f e) := by
  obtain ⟨p1, p2, p3⟩ := kTT h1 h2
  obtain ⟨q1, q2, q3⟩ := kTP h2 h3
  rw [p1, p2, q1, q2, (kTP p3 h3).1, (kTT h1 q3).1]
  all_goals k_dist [h1.1, h1.2, h2.1, h2.2, h3.1, h3.2]

theorem kaLo_assoc_TTZ (a b c d e f : K) (h1 : TT a b) (h2 : TT c d) (h3 : TZ e f) :
    kaLo (kaLo a b c d) (kaLo b a d c) e f = kaLo a b (kaLo c d e f) (kaLo d c f e) := by
  obtain ⟨p1, p2, p3⟩ := kTT h1 h2
  obtain ⟨q1, q2, q3⟩ := kTZ h2 h3
  rw [p1, p2, q1, q2, (kTZ p3 h3).1, (kTP h1 q3).1]
  all_goals k_dist [h1.1, h1.2, h2.1, h2.2, h3.1, h3.2]

theorem kaLo_assoc_TTT (a b c d e f : K) (h1 : TT a b) (h2 : TT c d) (h3 : TT e f) :
    kaLo (kaLo a b c d) (kaLo b a d c) e f = kaLo a b (kaLo c d e f) (kaLo d c f e) := by
  obtain ⟨p1, p2, p3⟩ := kTT h1 h2
  obtain ⟨q1, q2, q3⟩ := kTT h2 h3
  rw [p1, p2, q1, q2, (kTT p3 h3).1, (kTT h1 q3).1]
  all_goals k_dist [h1.1, h1.2, h2.1, h2.2, h3.1, h3.2]

theorem kaLo_assoc_pos {a b c d e f : K} (h1 : ¬ (a ≤ 0 ∧ b ≤ 0)) (h2 : ¬ (c ≤ 0 ∧ d ≤ 0)) (h3 : ¬ (e ≤ 0 ∧ f ≤ 0)) :
    kaLo (kaLo a b c d) (kaLo b a d c) e f = kaLo a b (kaLo c d e f) (kaLo d c f e) := by
  have ty : ∀ u v : K, ¬ (u ≤ 0 ∧ v ≤ 0) → TP u v ∨ TZ u v ∨ TT u v := by
    intro u v h
    rcases le_total 0 u with hu | hu
    · rcases le_total 0 v with hv | hv
      · exact Or.inl ⟨hu, hv⟩
      · exact Or.inr (Or.inr ⟨hu, hv⟩)
    · rcases le_total 0 v with hv | hv
      · exact Or.inr (Or.inl ⟨hu, hv⟩)
      · exact absurd ⟨hu, hv⟩ h
  rcases ty a b h1 with x | x | x <;> rcases ty c d h2 with y | y | y <;> rcases ty e f h3 with z | z | z
  · exact kaLo_assoc_PPP a b c d e f x y z
  · exact kaLo_assoc_PPZ a b c d e f x y z
  · exact kaLo_assoc_PPT a b c d e f x y z
  · exact kaLo_assoc_PZP a b c d e f x y z
  · exact kaLo_assoc_PZZ a b c d e f x y z
  · exact kaLo_assoc_PZT a b c d e f x y z
  · exact kaLo_assoc_PTP a b c d e f x y z
  · exact kaLo_assoc_PTZ a b c d e f x y z
  · exact kaLo_assoc_PTT a b c d e f x y z
  · exact kaLo_assoc_ZPP a b c d e f x y z
  · exact kaLo_assoc_ZPZ a b c d e f x y z
  · exact kaLo_assoc_ZPT a b c d e f x y z
  · exact kaLo_assoc_ZZP a b c d e f x y z
  · exact kaLo_assoc_ZZZ a b c d e f x y z
  · exact kaLo_assoc_ZZT a b c d e f x y z
  · exact kaLo_assoc_ZTP a b c d e f x y z
  · exact kaLo_assoc_ZTZ a b c d e f x y z
  · exact kaLo_assoc_ZTT a b c d e f x y z
  · exact kaLo_assoc_TPP a b c d e f x y z
  · exact kaLo_assoc_TPZ a b c d e f x y z
  · exact kaLo_assoc_TPT a b c d e f x y z
  · exact kaLo_assoc_TZP a b c d e f x y z
  · exact kaLo_assoc_TZZ a b c d e f x y z
  · exact kaLo_assoc_TZT a b c d e f x y z
  · exact kaLo_assoc_TTP a b c d e f x y z
  · exact kaLo_assoc_TTZ a b c d e f x y z
  · exact kaLo_assoc_TTT a b c d e f x y z

theorem kaLo_zero (c d : K) : kaLo 0 0 c d = 0 := by
  unfold kaLo
  rw [plus_of_nonneg le_rfl, minus_of_nonneg le_rfl]
  simp

/-- The product of directed intervals is associative. -/
theorem kaLo_assoc (a b c d e f : K) :
    kaLo (kaLo a b c d) (kaLo b a d c) e f = kaLo a b (kaLo c d e f) (kaLo d c f e) := by
  -- a factor with two nonpositive ends is the negative of one with two nonnegative ends
  have flip : ∀ u v : K, (u ≤ 0 ∧ v ≤ 0) → (u = 0 ∧ v = 0) ∨ ¬ (-u ≤ 0 ∧ -v ≤ 0) := by
    intro u v h
    by_cases hc : -u ≤ 0 ∧ -v ≤ 0
    · exact Or.inl ⟨le_antisymm h.1 (by linarith [hc.1]), le_antisymm h.2 (by linarith [hc.2])⟩
    · exact Or.inr hc
  have z : ∀ u v : K, kaLo u v 0 0 = 0 := fun u v => by rw [kaLo_comm, kaLo_zero]
  have s3 : ∀ a b c d e f : K, ¬ (a ≤ 0 ∧ b ≤ 0) → ¬ (c ≤ 0 ∧ d ≤ 0) →
      kaLo (kaLo a b c d) (kaLo b a d c) e f = kaLo a b (kaLo c d e f) (kaLo d c f e) := by
    intro a b c d e f h1 h2
    by_cases h3 : e ≤ 0 ∧ f ≤ 0
    · rcases flip e f h3 with ⟨rfl, rfl⟩ | h3'
      · simp only [z]
      · have := kaLo_assoc_pos (e := -e) (f := -f) (fun h => h1 ⟨h.2, h.1⟩) (fun h => h2 ⟨h.2, h.1⟩) h3'
        rw [kaLo_neg_right, kaLo_neg_right, kaLo_neg_right, kaLo_neg_right] at this
        exact neg_injective this
    · exact kaLo_assoc_pos h1 h2 h3
  have s2 : ∀ a b c d e f : K, ¬ (a ≤ 0 ∧ b ≤ 0) →
      kaLo (kaLo a b c d) (kaLo b a d c) e f = kaLo a b (kaLo c d e f) (kaLo d c f e) := by
    intro a b c d e f h1
    by_cases h2 : c ≤ 0 ∧ d ≤ 0
    · rcases flip c d h2 with ⟨rfl, rfl⟩ | h2'
      · simp only [z, kaLo_zero]
      · have := s3 b a (-c) (-d) f e (fun h => h1 ⟨h.2, h.1⟩) h2'
        rw [kaLo_neg_right, kaLo_neg_right, kaLo_neg_left, kaLo_neg_left, kaLo_neg_left, kaLo_neg_right] at this
        exact neg_injective this
    · exact s3 a b c d e f h1 h2
  by_cases h1 : a ≤ 0 ∧ b ≤ 0
  · rcases flip a b h1 with ⟨rfl, rfl⟩ | h1'
    · simp only [kaLo_zero]
    · have := s2 (-a) (-b) d c f e h1'
      rw [kaLo_neg_left, kaLo_neg_left, kaLo_neg_left, kaLo_neg_left] at this
      exact neg_injective this
  · exact s2 a b c d e f h1

end IntvalPy
