import Verif.ModelPPS
import Verif.PropsPPS
import Mathlib.Tactic.Linarith
import Mathlib.Tactic.Ring
import Mathlib.Data.Fintype.Card
import Mathlib.Data.Finset.Card

/-!
# The propagation of the tags in PPS ends (C122)

The loop `while Wch or sch or tch` of /repo/intvalpy/linear/PPS.py:90-159 has no bound of its own.  Here: it ends after at
most `2 n + 1` passes for all tags, also for tags that contradict each other; what it computes; and that `PPS` therefore
never hangs in it.
-/

set_option autoImplicit false
set_option linter.unusedSectionVars false

namespace IntvalPy

/-- A tag: -1, 0 or 1. -/
def IsTag (v : ℤ) : Prop := v = -1 ∨ v = 0 ∨ v = 1

theorem IsTag.mul {v w : ℤ} (hv : IsTag v) (hw : IsTag w) : IsTag (v * w) := by
  unfold IsTag at *
  rcases hv with rfl | rfl | rfl <;> rcases hw with rfl | rfl | rfl <;> simp

theorem IsTag.div {v w : ℤ} (hv : IsTag v) (hw : IsTag w) : IsTag (v / w) := by
  unfold IsTag at *
  rcases hv with rfl | rfl | rfl <;> rcases hw with rfl | rfl | rfl <;> simp

/-- Division of tags is the inverse of multiplication. -/
theorem IsTag.div_mul {v w : ℤ} (hw : IsTag w) (h : w ≠ 0) : v / w * w = v := by
  rcases hw with rfl | rfl | rfl
  · simp
  · exact absurd rfl h
  · simp

theorem IsTag.mul_div {v w : ℤ} (hw : IsTag w) (h : w ≠ 0) : v * w / w = v := Int.mul_ediv_cancel v h

theorem IsTag.div_ne {v w : ℤ} (hw : IsTag w) (h : w ≠ 0) (hv : v ≠ 0) : v / w ≠ 0 := by
  intro h0
  have := hw.div_mul (v := v) h
  rw [h0, zero_mul] at this
  exact hv this.symm

/-- All entries are tags. -/
structure AreTags {n : ℕ} (g : PpsTags n) : Prop where
  W : ∀ i j, IsTag (g.W i j)
  s : ∀ i, IsTag (g.s i)
  t : ∀ j, IsTag (g.t j)

section
variable {n : ℕ}

/-- The invariant of the loop after the first pass: the rows and columns in the lists have tags, and the entries of
`Omega` agree with them. -/
structure TagInv (p : PpsProp n) : Prop where
  tags : AreTags p.tags
  ks : ∀ k ∈ p.ks, p.tags.s k ≠ 0
  lambdas : ∀ l ∈ p.lambdas, p.tags.t l ≠ 0
  omegas : ∀ e ∈ p.omegas, p.tags.s e.1 ≠ 0 ∧ p.tags.t e.2 ≠ 0 ∧ p.tags.W e.1 e.2 = p.tags.s e.1 * p.tags.t e.2

/-- What the steps may do: set tags of rows and columns that were 0, and make entries of `W` agree with them. -/
structure TagExt (p q : PpsProp n) : Prop where
  inv : TagInv q
  s : ∀ i, p.tags.s i ≠ 0 → q.tags.s i = p.tags.s i
  t : ∀ j, p.tags.t j ≠ 0 → q.tags.t j = p.tags.t j
  ks : ∀ k ∈ p.ks, k ∈ q.ks
  lambdas : ∀ l ∈ p.lambdas, l ∈ q.lambdas
  sc : p.sc = true → q.sc = true
  tc : p.tc = true → q.tc = true
  sNew : ∀ i, q.tags.s i ≠ p.tags.s i → i ∈ q.ks
  tNew : ∀ j, q.tags.t j ≠ p.tags.t j → j ∈ q.lambdas
  sSame : q.sc = false → q.ks = p.ks ∧ ∀ i, q.tags.s i = p.tags.s i
  tSame : q.tc = false → q.lambdas = p.lambdas ∧ ∀ j, q.tags.t j = p.tags.t j
  scNew : q.sc = true → p.sc = true ∨ ∃ i, p.tags.s i = 0 ∧ q.tags.s i ≠ 0
  tcNew : q.tc = true → p.tc = true ∨ ∃ j, p.tags.t j = 0 ∧ q.tags.t j ≠ 0
  W : ∀ i j, q.tags.W i j = p.tags.W i j ∨
    (q.tags.s i ≠ 0 ∧ q.tags.t j ≠ 0 ∧ q.tags.W i j = q.tags.s i * q.tags.t j ∧ (i ∈ q.ks ∨ j ∈ q.lambdas))

theorem TagExt.refl {p : PpsProp n} (h : TagInv p) : TagExt p p :=
  ⟨h, fun _ _ => rfl, fun _ _ => rfl, fun _ h => h, fun _ h => h, id, id, fun _ h => absurd rfl h, fun _ h => absurd rfl h,
    fun _ => ⟨rfl, fun _ => rfl⟩, fun _ => ⟨rfl, fun _ => rfl⟩, .inl, .inl, fun _ _ => .inl rfl⟩

theorem TagExt.trans {p q r : PpsProp n} (h : TagExt p q) (h' : TagExt q r) : TagExt p r where
  inv := h'.inv
  s i hi := by rw [h'.s i (by rw [h.s i hi]; exact hi), h.s i hi]
  t j hj := by rw [h'.t j (by rw [h.t j hj]; exact hj), h.t j hj]
  ks k hk := h'.ks k (h.ks k hk)
  lambdas l hl := h'.lambdas l (h.lambdas l hl)
  sc := h'.sc ∘ h.sc
  tc := h'.tc ∘ h.tc
  sNew i hi := by
    by_cases e : q.tags.s i = p.tags.s i
    · exact h'.sNew i (by rw [e]; exact hi)
    · exact h'.ks i (h.sNew i e)
  tNew j hj := by
    by_cases e : q.tags.t j = p.tags.t j
    · exact h'.tNew j (by rw [e]; exact hj)
    · exact h'.lambdas j (h.tNew j e)
  sSame hr := by
    have hq : q.sc = false := by
      cases hq : q.sc with
      | false => rfl
      | true => rw [h'.sc hq] at hr; exact hr
    exact ⟨(h'.sSame hr).1.trans (h.sSame hq).1, fun i => ((h'.sSame hr).2 i).trans ((h.sSame hq).2 i)⟩
  tSame hr := by
    have hq : q.tc = false := by
      cases hq : q.tc with
      | false => rfl
      | true => rw [h'.tc hq] at hr; exact hr
    exact ⟨(h'.tSame hr).1.trans (h.tSame hq).1, fun i => ((h'.tSame hr).2 i).trans ((h.tSame hq).2 i)⟩
  scNew hr := by
    rcases h'.scNew hr with hq | ⟨i, h0, h1⟩
    · rcases h.scNew hq with hp | ⟨i, h0, h1⟩
      · exact .inl hp
      · exact .inr ⟨i, h0, by rw [h'.s i h1]; exact h1⟩
    · refine .inr ⟨i, ?_, h1⟩
      by_contra hne
      rw [h.s i hne] at h0
      exact hne h0
  tcNew hr := by
    rcases h'.tcNew hr with hq | ⟨i, h0, h1⟩
    · rcases h.tcNew hq with hp | ⟨i, h0, h1⟩
      · exact .inl hp
      · exact .inr ⟨i, h0, by rw [h'.t i h1]; exact h1⟩
    · refine .inr ⟨i, ?_, h1⟩
      by_contra hne
      rw [h.t i hne] at h0
      exact hne h0
  W i j := by
    rcases h'.W i j with e | e
    · rcases h.W i j with e' | ⟨h1, h2, h3, h4⟩
      · exact .inl (e.trans e')
      · refine .inr ⟨by rw [h'.s i h1]; exact h1, by rw [h'.t j h2]; exact h2, ?_, ?_⟩
        · rw [e, h3, h'.s i h1, h'.t j h2]
        · exact h4.imp (h'.ks i) (h'.lambdas j)
    · exact .inr e

/-- An entry agrees with the tags of its row and column. -/
def Agrees (p : PpsProp n) (e : Fin n × Fin n) : Prop :=
  p.tags.s e.1 ≠ 0 ∧ p.tags.t e.2 ≠ 0 ∧ p.tags.W e.1 e.2 = p.tags.s e.1 * p.tags.t e.2

theorem TagExt.agrees {p q : PpsProp n} (h : TagExt p q) {e : Fin n × Fin n} (he : Agrees p e) : Agrees q e := by
  obtain ⟨h1, h2, h3⟩ := he
  have e1 := h.s _ h1
  have e2 := h.t _ h2
  refine ⟨by rw [e1]; exact h1, by rw [e2]; exact h2, ?_⟩
  rcases h.W e.1 e.2 with e | ⟨-, -, e, -⟩
  · rw [e, h3, e1, e2]
  · exact e

/-! ### The three kinds of steps -/

theorem setW_ext {p : PpsProp n} (h : TagInv p) (e : Fin n × Fin n) (hs : p.tags.s e.1 ≠ 0) (ht : p.tags.t e.2 ≠ 0)
    (hl : e.1 ∈ p.ks ∨ e.2 ∈ p.lambdas) : TagExt p (p.setW e) ∧ Agrees (p.setW e) e := by
  have hW : ∀ i j, (p.setW e).tags.W i j = if i = e.1 ∧ j = e.2 then p.tags.s e.1 * p.tags.t e.2 else p.tags.W i j :=
    fun i j => rfl
  have ha : Agrees (p.setW e) e := ⟨hs, ht, by rw [hW, if_pos ⟨rfl, rfl⟩]; rfl⟩
  refine ⟨⟨⟨⟨fun i j => ?_, h.tags.s, h.tags.t⟩, h.ks, h.lambdas, fun f hf => ?_⟩, fun _ _ => rfl, fun _ _ => rfl, fun _ h => h,
    fun _ h => h, id, id, fun _ h => absurd rfl h, fun _ h => absurd rfl h, fun _ => ⟨rfl, fun _ => rfl⟩,
    fun _ => ⟨rfl, fun _ => rfl⟩, .inl, .inl, fun i j => ?_⟩, ha⟩
  · rw [hW]
    split_ifs
    · exact (h.tags.s _).mul (h.tags.t _)
    · exact h.tags.W i j
  · have hf' : f ∈ p.omegas ∨ f = e := by
      dsimp only [PpsProp.setW] at hf
      split_ifs at hf
      · exact .inl hf
      · rcases List.mem_append.1 hf with hf | hf
        · exact .inl hf
        · exact .inr (List.mem_singleton.1 hf)
    by_cases hfe : f = e
    · subst hfe; exact ha
    · have hf0 := hf'.resolve_right hfe
      obtain ⟨a1, a2, a3⟩ := h.omegas f hf0
      refine ⟨a1, a2, ?_⟩
      rw [hW, if_neg fun hc => hfe (Prod.ext hc.1 hc.2)]
      exact a3
  · by_cases hc : i = e.1 ∧ j = e.2
    · obtain ⟨rfl, rfl⟩ := hc
      exact .inr ⟨ha.1, ha.2.1, ha.2.2, hl⟩
    · exact .inl (by rw [hW, if_neg hc])

theorem setS_ext {p : PpsProp n} (h : TagInv p) (e : Fin n × Fin n) (hs : p.tags.s e.1 = 0) (ht : p.tags.t e.2 ≠ 0)
    (hW : p.tags.W e.1 e.2 ≠ 0) : TagExt p (p.setS e) ∧ (p.setS e).tags.s e.1 ≠ 0 := by
  have hd : p.tags.W e.1 e.2 / p.tags.t e.2 ≠ 0 := (h.tags.t _).div_ne ht hW
  have hS : ∀ i, (p.setS e).tags.s i = if i = e.1 then p.tags.W e.1 e.2 / p.tags.t e.2 else p.tags.s i := fun i => rfl
  have hK : (p.setS e).ks = p.ks ++ [e.1] := by
    dsimp only [PpsProp.setS]
    rw [if_neg (by rw [hs]; exact fun h => hd h.symm)]
  have hC : (p.setS e).sc = true := by
    dsimp only [PpsProp.setS]
    rw [hs, decide_eq_false (fun h => hd h.symm)]
    simp
  have hne : (p.setS e).tags.s e.1 ≠ 0 := by rw [hS, if_pos rfl]; exact hd
  have hkeep : ∀ i, p.tags.s i ≠ 0 → (p.setS e).tags.s i = p.tags.s i := fun i hi => by
    rw [hS, if_neg]
    rintro rfl
    exact hi hs
  refine ⟨⟨⟨⟨h.tags.W, fun i => ?_, h.tags.t⟩, fun k hk => ?_, h.lambdas, fun f hf => ?_⟩, hkeep, fun _ _ => rfl, fun k hk => ?_,
    fun _ h => h, fun _ => hC, id, fun i hi => ?_, fun _ h => absurd rfl h, fun h0 => absurd (hC.symm.trans h0) (by simp),
    fun _ => ⟨rfl, fun _ => rfl⟩, fun _ => .inr ⟨e.1, hs, hne⟩, .inl, fun _ _ => .inl rfl⟩, hne⟩
  · rw [hS]
    split_ifs
    · exact (h.tags.W _ _).div (h.tags.t _)
    · exact h.tags.s i
  · rw [hK] at hk
    rcases List.mem_append.1 hk with hk | hk
    · rw [hkeep k (h.ks k hk)]; exact h.ks k hk
    · rw [List.mem_singleton.1 hk]; exact hne
  · obtain ⟨a1, a2, a3⟩ := h.omegas f hf
    rw [hkeep _ a1]
    exact ⟨a1, a2, a3⟩
  · rw [hK]; exact List.mem_append.2 (.inl hk)
  · rw [hK]
    refine List.mem_append.2 (.inr (List.mem_singleton.2 ?_))
    by_contra hc
    exact hi (by rw [hS, if_neg hc])

theorem setT_ext {p : PpsProp n} (h : TagInv p) (e : Fin n × Fin n) (hs : p.tags.s e.1 ≠ 0) (ht : p.tags.t e.2 = 0)
    (hW : p.tags.W e.1 e.2 ≠ 0) : TagExt p (p.setT e) ∧ (p.setT e).tags.t e.2 ≠ 0 := by
  have hd : p.tags.W e.1 e.2 / p.tags.s e.1 ≠ 0 := (h.tags.s _).div_ne hs hW
  have hS : ∀ i, (p.setT e).tags.t i = if i = e.2 then p.tags.W e.1 e.2 / p.tags.s e.1 else p.tags.t i := fun i => rfl
  have hK : (p.setT e).lambdas = p.lambdas ++ [e.2] := by
    dsimp only [PpsProp.setT]
    rw [if_neg (by rw [ht]; exact fun h => hd h.symm)]
  have hC : (p.setT e).tc = true := by
    dsimp only [PpsProp.setT]
    rw [ht, decide_eq_false (fun h => hd h.symm)]
    simp
  have hne : (p.setT e).tags.t e.2 ≠ 0 := by rw [hS, if_pos rfl]; exact hd
  have hkeep : ∀ i, p.tags.t i ≠ 0 → (p.setT e).tags.t i = p.tags.t i := fun i hi => by
    rw [hS, if_neg]
    rintro rfl
    exact hi ht
  refine ⟨⟨⟨⟨h.tags.W, h.tags.s, fun i => ?_⟩, h.ks, fun k hk => ?_, fun f hf => ?_⟩, fun _ _ => rfl, hkeep, fun _ h => h,
    fun k hk => ?_, id, fun _ => hC, fun _ h => absurd rfl h, fun i hi => ?_, fun _ => ⟨rfl, fun _ => rfl⟩,
    fun h0 => absurd (hC.symm.trans h0) (by simp), .inl, fun _ => .inr ⟨e.2, ht, hne⟩, fun _ _ => .inl rfl⟩, hne⟩
  · rw [hS]
    split_ifs
    · exact (h.tags.W _ _).div (h.tags.s _)
    · exact h.tags.t i
  · rw [hK] at hk
    rcases List.mem_append.1 hk with hk | hk
    · rw [hkeep k (h.lambdas k hk)]; exact h.lambdas k hk
    · rw [List.mem_singleton.1 hk]; exact hne
  · obtain ⟨a1, a2, a3⟩ := h.omegas f hf
    rw [hkeep _ a2]
    exact ⟨a1, a2, a3⟩
  · rw [hK]; exact List.mem_append.2 (.inl hk)
  · rw [hK]
    refine List.mem_append.2 (.inr (List.mem_singleton.2 ?_))
    by_contra hc
    exact hi (by rw [hS, if_neg hc])

/-! ### The phases -/

/-- A loop of steps: `pre` is what a step needs, `done` what it achieves; both last. -/
theorem fold_ext (f : PpsProp n → Fin n × Fin n → PpsProp n) (pre done : PpsProp n → Fin n × Fin n → Prop)
    (hf : ∀ p e, TagInv p → pre p e → TagExt p (f p e) ∧ done (f p e) e)
    (hpre : ∀ p q e, TagExt p q → pre p e → pre q e) (hdone : ∀ p q e, TagExt p q → done p e → done q e)
    (l : List (Fin n × Fin n)) (p : PpsProp n) (h : TagInv p) (hl : ∀ e ∈ l, pre p e) :
    TagExt p (l.foldl f p) ∧ ∀ e ∈ l, done (l.foldl f p) e := by
  induction l generalizing p with
  | nil => exact ⟨.refl h, fun _ h => by cases h⟩
  | cons a t ih =>
    obtain ⟨h1, h2⟩ := hf p a h (hl a List.mem_cons_self)
    obtain ⟨h3, h4⟩ := ih (f p a) h1.inv fun e he => hpre _ _ _ h1 (hl e (List.mem_cons_of_mem _ he))
    refine ⟨h1.trans h3, fun e he => ?_⟩
    rcases List.mem_cons.1 he with rfl | he
    · exact hdone _ _ _ h3 h2
    · exact h4 e he

theorem phase1_ext {p : PpsProp n} (h : TagInv p) :
    TagExt p p.phase1 ∧ ∀ k ∈ p.ks, ∀ j, p.tags.t j ≠ 0 → Agrees p.phase1 (k, j) := by
  obtain ⟨h1, h2⟩ := fold_ext PpsProp.setW (fun p e => e.1 ∈ p.ks ∧ p.tags.t e.2 ≠ 0) Agrees
    (fun p e hp he => setW_ext hp e (hp.ks _ he.1) he.2 (.inl he.1))
    (fun p q e hpq he => ⟨hpq.ks _ he.1, by rw [hpq.t _ he.2]; exact he.2⟩) (fun p q e hpq he => hpq.agrees he)
    (p.ks.flatMap fun k => ((List.finRange n).filter fun j => p.tags.t j ≠ 0).map fun j => (k, j)) p h (by
      intro e he
      simp only [List.mem_flatMap, List.mem_map, List.mem_filter, List.mem_finRange, true_and] at he
      obtain ⟨k, hk, j, hj, rfl⟩ := he
      exact ⟨hk, by simpa using hj⟩)
  refine ⟨h1, fun k hk j hj => h2 _ ?_⟩
  simp only [List.mem_flatMap, List.mem_map, List.mem_filter, List.mem_finRange, true_and]
  exact ⟨k, hk, j, by simpa using hj, rfl⟩

theorem phase2_ext {p : PpsProp n} (h : TagInv p) :
    TagExt p p.phase2 ∧ ∀ l ∈ p.lambdas, ∀ j, p.tags.s j ≠ 0 → Agrees p.phase2 (j, l) := by
  obtain ⟨h1, h2⟩ := fold_ext PpsProp.setW (fun p e => e.2 ∈ p.lambdas ∧ p.tags.s e.1 ≠ 0) Agrees
    (fun p e hp he => setW_ext hp e he.2 (hp.lambdas _ he.1) (.inr he.1))
    (fun p q e hpq he => ⟨hpq.lambdas _ he.1, by rw [hpq.s _ he.2]; exact he.2⟩) (fun p q e hpq he => hpq.agrees he)
    (p.lambdas.flatMap fun l => ((List.finRange n).filter fun j => p.tags.s j ≠ 0).map fun j => (j, l)) p h (by
      intro e he
      simp only [List.mem_flatMap, List.mem_map, List.mem_filter, List.mem_finRange, true_and] at he
      obtain ⟨k, hk, j, hj, rfl⟩ := he
      exact ⟨hk, by simpa using hj⟩)
  refine ⟨h1, fun k hk j hj => h2 _ ?_⟩
  simp only [List.mem_flatMap, List.mem_map, List.mem_filter, List.mem_finRange, true_and]
  exact ⟨k, hk, j, by simpa using hj, rfl⟩

theorem foldl_id {α : Type*} (f : PpsProp n → α → PpsProp n) (l : List α) (p : PpsProp n) (h : ∀ a ∈ l, f p a = p) :
    l.foldl f p = p := by
  induction l with
  | nil => rfl
  | cons a t ih =>
    rw [List.foldl_cons, h a List.mem_cons_self]
    exact ih fun b hb => h b (List.mem_cons_of_mem _ hb)

theorem setS_id {p : PpsProp n} (e : Fin n × Fin n) (h : p.tags.W e.1 e.2 / p.tags.t e.2 = p.tags.s e.1) : p.setS e = p := by
  obtain ⟨⟨W, s, t⟩, om, ks, la, wc, sc, tc⟩ := p
  dsimp only at h
  have : (fun i => if i = e.1 then W e.1 e.2 / t e.2 else s i) = s := by
    funext i
    split_ifs with hi
    · rw [h, hi]
    · rfl
  rw [h] at this
  simp only [PpsProp.setS, this, h, decide_true, Bool.not_true, Bool.or_false, if_true]

theorem setT_id {p : PpsProp n} (e : Fin n × Fin n) (h : p.tags.W e.1 e.2 / p.tags.s e.1 = p.tags.t e.2) : p.setT e = p := by
  obtain ⟨⟨W, s, t⟩, om, ks, la, wc, sc, tc⟩ := p
  dsimp only at h
  have : (fun j => if j = e.2 then W e.1 e.2 / s e.1 else t j) = t := by
    funext i
    split_ifs with hi
    · rw [h, hi]
    · rfl
  rw [h] at this
  simp only [PpsProp.setT, this, h, decide_true, Bool.not_true, Bool.or_false, if_true]

theorem phase3_id {p : PpsProp n} (h : TagInv p) : p.phase3 = p := by
  refine foldl_id _ _ _ fun e he => ?_
  obtain ⟨h1, h2, h3⟩ := h.omegas e he
  rw [if_pos h2]
  exact setS_id e (by rw [h3]; exact (h.tags.t _).mul_div h2)

theorem phase5_id {p : PpsProp n} (h : TagInv p) : p.phase5 = p := by
  refine foldl_id _ _ _ fun e he => ?_
  obtain ⟨h1, h2, h3⟩ := h.omegas e he
  rw [if_pos h1]
  exact setT_id e (by rw [h3, mul_comm]; exact (h.tags.s _).mul_div h1)

theorem phase4_ext {p : PpsProp n} (h : TagInv p) :
    TagExt p p.phase4 ∧ ∀ l ∈ p.lambdas, ∀ j, p.phase4.tags.s j ≠ 0 ∨ p.phase4.tags.W j l = 0 := by
  obtain ⟨h1, h2⟩ := fold_ext (fun p jl => if p.tags.s jl.1 = 0 ∧ p.tags.W jl.1 jl.2 ≠ 0 then p.setS jl else p)
    (fun p e => e.2 ∈ p.lambdas) (fun p e => p.tags.s e.1 ≠ 0 ∨ p.tags.W e.1 e.2 = 0)
    (fun p e hp he => by
      split_ifs with hc
      · obtain ⟨a1, a2⟩ := setS_ext hp e hc.1 (hp.lambdas _ he) hc.2
        exact ⟨a1, .inl a2⟩
      · refine ⟨.refl hp, ?_⟩
        by_contra hne
        exact hc ⟨by_contra fun h => hne (.inl h), fun h => hne (.inr h)⟩)
    (fun p q e hpq he => hpq.lambdas _ he)
    (fun p q e hpq he => by
      rcases he with he | he
      · exact .inl (by rw [hpq.s _ he]; exact he)
      · rcases hpq.W e.1 e.2 with h | h
        · exact .inr (h.trans he)
        · exact .inl h.1)
    (p.lambdas.flatMap fun l => (List.finRange n).map fun j => (j, l)) p h (by
      intro e he
      simp only [List.mem_flatMap, List.mem_map, List.mem_finRange, true_and] at he
      obtain ⟨k, hk, j, rfl⟩ := he
      exact hk)
  refine ⟨h1, fun k hk j => h2 (j, k) ?_⟩
  simp only [List.mem_flatMap, List.mem_map, List.mem_finRange, true_and]
  exact ⟨k, hk, j, rfl⟩

theorem phase6_ext {p : PpsProp n} (h : TagInv p) :
    TagExt p p.phase6 ∧ ∀ k ∈ p.ks, ∀ j, p.phase6.tags.t j ≠ 0 ∨ p.phase6.tags.W k j = 0 := by
  obtain ⟨h1, h2⟩ := fold_ext (fun p kj => if p.tags.t kj.2 = 0 ∧ p.tags.W kj.1 kj.2 ≠ 0 then p.setT kj else p)
    (fun p e => e.1 ∈ p.ks) (fun p e => p.tags.t e.2 ≠ 0 ∨ p.tags.W e.1 e.2 = 0)
    (fun p e hp he => by
      split_ifs with hc
      · obtain ⟨a1, a2⟩ := setT_ext hp e (hp.ks _ he) hc.1 hc.2
        exact ⟨a1, .inl a2⟩
      · refine ⟨.refl hp, ?_⟩
        by_contra hne
        exact hc ⟨by_contra fun h => hne (.inl h), fun h => hne (.inr h)⟩)
    (fun p q e hpq he => hpq.ks _ he)
    (fun p q e hpq he => by
      rcases he with he | he
      · exact .inl (by rw [hpq.t _ he]; exact he)
      · rcases hpq.W e.1 e.2 with h | h
        · exact .inr (h.trans he)
        · exact .inl h.2.1)
    (p.ks.flatMap fun k => (List.finRange n).map fun j => (k, j)) p h (by
      intro e he
      simp only [List.mem_flatMap, List.mem_map, List.mem_finRange, true_and] at he
      obtain ⟨k, hk, j, rfl⟩ := he
      exact hk)
  refine ⟨h1, fun k hk j => h2 (k, j) ?_⟩
  simp only [List.mem_flatMap, List.mem_map, List.mem_finRange, true_and]
  exact ⟨k, hk, j, rfl⟩

/-! ### One pass -/

/-- What is still to be done at the beginning of a pass: the rows of `K` and the columns of `Lambda` agree with the tags,
unless one of the flags announces that they will be visited. -/
structure TagDue (p : PpsProp n) : Prop where
  inv : TagInv p
  rows : ∀ k ∈ p.ks, ∀ j, p.tags.W k j = p.tags.s k * p.tags.t j ∨ p.sc = true ∨ (p.tc = true ∧ j ∈ p.lambdas)
  cols : ∀ l ∈ p.lambdas, ∀ i, p.tags.W i l = p.tags.s i * p.tags.t l ∨ p.tc = true ∨ (p.sc = true ∧ i ∈ p.ks)

/-- The flags at the beginning of the body, /repo/intvalpy/linear/PPS.py:91-93. -/
def PpsProp.quiet (p : PpsProp n) : PpsProp n := { p with wc := false, sc := false, tc := false }

theorem quiet_inv {p : PpsProp n} (h : TagInv p) : TagInv p.quiet := ⟨h.tags, h.ks, h.lambdas, h.omegas⟩

theorem when_ext {p : PpsProp n} (h : TagInv p) (flag : Bool) (f : PpsProp n → PpsProp n) (hf : TagExt p (f p)) :
    TagExt p (p.when flag f) := by
  unfold PpsProp.when
  split_ifs
  · exact hf
  · exact .refl h

/-- With the invariant, a pass consists of the phases 1, 2, 4 and 6. -/
theorem pass_eq {p : PpsProp n} (h : TagInv p) :
    p.pass = (((p.quiet.when p.sc PpsProp.phase1).when p.tc PpsProp.phase2).when p.tc PpsProp.phase4).when p.sc PpsProp.phase6 := by
  have h1 := when_ext (quiet_inv h) p.sc _ (phase1_ext (quiet_inv h)).1
  have h2 := when_ext h1.inv p.tc _ (phase2_ext h1.inv).1
  have h4 := when_ext h2.inv p.tc _ (phase4_ext h2.inv).1
  have e3 : ∀ (q : PpsProp n) (b : Bool), TagInv q → q.when b PpsProp.phase3 = q := fun q b hq => by
    unfold PpsProp.when
    split_ifs
    · exact phase3_id hq
    · rfl
  have e5 : ∀ (q : PpsProp n) (b : Bool), TagInv q → q.when b PpsProp.phase5 = q := fun q b hq => by
    unfold PpsProp.when
    split_ifs
    · exact phase5_id hq
    · rfl
  show ((((((p.quiet.when p.sc _).when p.tc _).when p.wc PpsProp.phase3).when p.tc _).when p.wc PpsProp.phase5).when p.sc _) = _
  rw [e3 _ _ h2.inv, e5 _ _ h4.inv]

theorem pass_ext {p : PpsProp n} (h : TagInv p) : TagExt p.quiet p.pass := by
  rw [pass_eq h]
  have h1 := when_ext (quiet_inv h) p.sc _ (phase1_ext (quiet_inv h)).1
  have h2 := when_ext h1.inv p.tc _ (phase2_ext h1.inv).1
  have h4 := when_ext h2.inv p.tc _ (phase4_ext h2.inv).1
  exact ((h1.trans h2).trans h4).trans (when_ext h4.inv p.sc _ (phase6_ext h4.inv).1)

/-- A pass without the flags `sch` and `tch` changes nothing, and the loop ends. -/
theorem pass_still {p : PpsProp n} (h : TagInv p) (hs : p.sc = false) (ht : p.tc = false) : p.pass = p.quiet := by
  rw [pass_eq h, hs, ht]
  rfl

theorem agree_of_ext {p q : PpsProp n} (h : TagExt p q) {i j : Fin n} (hs : q.tags.s i = p.tags.s i)
    (ht : q.tags.t j = p.tags.t j) (hW : p.tags.W i j = p.tags.s i * p.tags.t j) :
    q.tags.W i j = q.tags.s i * q.tags.t j := by
  rcases h.W i j with e | e
  · rw [e, hW, hs, ht]
  · exact e.2.2.1

theorem pass_due {p : PpsProp n} (h : TagDue p) : TagDue p.pass := by
  have hE := pass_ext h.inv
  have hp := pass_eq h.inv
  have i0 := quiet_inv h.inv
  have h1 := when_ext i0 p.sc _ (phase1_ext i0).1
  have h2 := when_ext h1.inv p.tc _ (phase2_ext h1.inv).1
  have h4 := when_ext h2.inv p.tc _ (phase4_ext h2.inv).1
  have h6 := when_ext h4.inv p.sc _ (phase6_ext h4.inv).1
  rw [← hp] at h6
  refine ⟨hE.inv, fun k hk j => ?_, fun l hl i => ?_⟩
  · cases hsc : p.pass.sc with
    | true => exact .inr (.inl rfl)
    | false =>
      obtain ⟨eK, eS⟩ := hE.sSame hsc
      have hk0 : k ∈ p.ks := by rw [eK] at hk; exact hk
      by_cases hd : p.pass.tc = true ∧ j ∈ p.pass.lambdas
      · exact .inr (.inr hd)
      refine .inl ?_
      have hnt : p.pass.tags.t j = p.tags.t j := by
        by_contra hne
        have hm := hE.tNew j hne
        refine hd ⟨?_, hm⟩
        cases htc : p.pass.tc with
        | true => rfl
        | false => exact absurd ((hE.tSame htc).2 j) hne
      cases hps : p.sc with
      | true =>
        by_cases ht0 : p.tags.t j = 0
        · have e6 : p.pass = PpsProp.phase6 ((((p.quiet.when p.sc PpsProp.phase1).when p.tc PpsProp.phase2).when p.tc PpsProp.phase4)) := by
            conv_lhs => rw [hp]
            rw [hps]
            rfl
          have := (phase6_ext h4.inv).2 k (h4.ks _ (h2.ks _ (h1.ks _ hk0))) j
          rw [← e6] at this
          rcases this with h' | h'
          · rw [hnt] at h'; exact absurd ht0 h'
          · rw [h', hnt, ht0, mul_zero]
        · have e1 : p.quiet.when p.sc PpsProp.phase1 = p.quiet.phase1 := by rw [hps]; rfl
          have := (phase1_ext i0).2 k hk0 j ht0
          rw [← e1] at this
          exact (((h2.trans h4).trans h6).agrees this).2.2
      | false =>
        rcases h.rows k hk0 j with e | e | ⟨htc, hj⟩
        · exact agree_of_ext hE (eS k) hnt e
        · rw [hps] at e; cases e
        · have e2 : (p.quiet.when p.sc PpsProp.phase1).when p.tc PpsProp.phase2 = p.quiet.phase2 := by rw [hps, htc]; rfl
          have := (phase2_ext i0).2 j hj k (h.inv.ks k hk0)
          rw [← e2] at this
          exact ((h4.trans h6).agrees this).2.2
  · cases htc : p.pass.tc with
    | true => exact .inr (.inl rfl)
    | false =>
      obtain ⟨eL, eT⟩ := hE.tSame htc
      have hl0 : l ∈ p.lambdas := by rw [eL] at hl; exact hl
      by_cases hd : p.pass.sc = true ∧ i ∈ p.pass.ks
      · exact .inr (.inr hd)
      refine .inl ?_
      have hns : p.pass.tags.s i = p.tags.s i := by
        by_contra hne
        have hm := hE.sNew i hne
        refine hd ⟨?_, hm⟩
        cases hsc : p.pass.sc with
        | true => rfl
        | false => exact absurd ((hE.sSame hsc).2 i) hne
      cases hpt : p.tc with
      | true =>
        by_cases hs0 : p.tags.s i = 0
        · have e4 : ((p.quiet.when p.sc PpsProp.phase1).when p.tc PpsProp.phase2).when p.tc PpsProp.phase4
              = PpsProp.phase4 ((p.quiet.when p.sc PpsProp.phase1).when p.tc PpsProp.phase2) := by
            conv_lhs => rw [hpt]
            rw [hpt]
            rfl
          have := (phase4_ext h2.inv).2 l (h2.lambdas _ (h1.lambdas _ hl0)) i
          rw [← e4] at this
          rcases this with h' | h'
          · rw [← h6.s i h', hns] at h'; exact absurd hs0 h'
          · rcases h6.W i l with e | e
            · rw [e, h', hns, hs0, zero_mul]
            · exact e.2.2.1
        · have e2 : (p.quiet.when p.sc PpsProp.phase1).when p.tc PpsProp.phase2
              = PpsProp.phase2 (p.quiet.when p.sc PpsProp.phase1) := by
            conv_lhs => rw [hpt]
            rfl
          have := (phase2_ext h1.inv).2 l (h1.lambdas _ hl0) i (by rw [h1.s i hs0]; exact hs0)
          rw [← e2] at this
          exact ((h4.trans h6).agrees this).2.2
      | false =>
        rcases h.cols l hl0 i with e | e | ⟨hsc, hi⟩
        · exact agree_of_ext hE hns (eT l) e
        · rw [hpt] at e; cases e
        · have e1 : p.quiet.when p.sc PpsProp.phase1 = p.quiet.phase1 := by rw [hsc]; rfl
          have := (phase1_ext i0).2 i hi l (h.inv.lambdas l hl0)
          rw [← e1] at this
          exact (((h2.trans h4).trans h6).agrees this).2.2

/-! ### The number of passes -/

/-- The number of rows and columns without a tag. -/
def tagZeros (g : PpsTags n) : ℕ := (Finset.univ.filter fun i => g.s i = 0).card + (Finset.univ.filter fun j => g.t j = 0).card

theorem tagZeros_ext {p q : PpsProp n} (h : TagExt p q) (hn : p.sc = false ∧ p.tc = false) :
    tagZeros q.tags ≤ tagZeros p.tags ∧ (q.sc = true ∨ q.tc = true → tagZeros q.tags < tagZeros p.tags) := by
  have s1 : (Finset.univ.filter fun i => q.tags.s i = 0) ⊆ Finset.univ.filter fun i => p.tags.s i = 0 := by
    intro i hi
    simp only [Finset.mem_filter, Finset.mem_univ, true_and] at hi ⊢
    by_contra hne
    rw [h.s i hne] at hi
    exact hne hi
  have s2 : (Finset.univ.filter fun i => q.tags.t i = 0) ⊆ Finset.univ.filter fun i => p.tags.t i = 0 := by
    intro i hi
    simp only [Finset.mem_filter, Finset.mem_univ, true_and] at hi ⊢
    by_contra hne
    rw [h.t i hne] at hi
    exact hne hi
  have c1 := Finset.card_le_card s1
  have c2 := Finset.card_le_card s2
  refine ⟨Nat.add_le_add c1 c2, ?_⟩
  unfold tagZeros
  rintro (hc | hc)
  · rcases h.scNew hc with h0 | ⟨i, h0, h1⟩
    · rw [hn.1] at h0; cases h0
    · have : (Finset.univ.filter fun i => q.tags.s i = 0).card < (Finset.univ.filter fun i => p.tags.s i = 0).card := by
        refine Finset.card_lt_card ⟨s1, fun hsub => ?_⟩
        have := hsub (Finset.mem_filter.2 ⟨Finset.mem_univ i, h0⟩)
        exact h1 (Finset.mem_filter.1 this).2
      omega
  · rcases h.tcNew hc with h0 | ⟨i, h0, h1⟩
    · rw [hn.2] at h0; cases h0
    · have : (Finset.univ.filter fun i => q.tags.t i = 0).card < (Finset.univ.filter fun i => p.tags.t i = 0).card := by
        refine Finset.card_lt_card ⟨s2, fun hsub => ?_⟩
        have := hsub (Finset.mem_filter.2 ⟨Finset.mem_univ i, h0⟩)
        exact h1 (Finset.mem_filter.1 this).2
      omega

/-- Everything that holds at the end of the loop. -/
structure TagEnd (p : PpsProp n) (g : PpsTags n) (Ks Ls : Fin n → Prop) : Prop where
  tags : AreTags g
  rows : ∀ k, Ks k → g.s k ≠ 0 ∧ ∀ j, g.W k j = g.s k * g.t j
  cols : ∀ l, Ls l → g.t l ≠ 0 ∧ ∀ i, g.W i l = g.s i * g.t l
  sOld : ∀ i, p.tags.s i ≠ 0 → g.s i = p.tags.s i
  tOld : ∀ j, p.tags.t j ≠ 0 → g.t j = p.tags.t j
  sOut : ∀ i, ¬ Ks i → g.s i = p.tags.s i
  tOut : ∀ j, ¬ Ls j → g.t j = p.tags.t j
  wOut : ∀ i j, ¬ Ks i → ¬ Ls j → g.W i j = p.tags.W i j
  ks : ∀ k ∈ p.ks, Ks k
  ls : ∀ l ∈ p.lambdas, Ls l

theorem TagExt.quiet_left {p q : PpsProp n} (h : TagExt p.quiet q) (i j : Fin n) :
    (q.tags.W i j = p.tags.W i j ∨ (q.tags.s i ≠ 0 ∧ q.tags.t j ≠ 0 ∧ q.tags.W i j = q.tags.s i * q.tags.t j ∧
      (i ∈ q.ks ∨ j ∈ q.lambdas))) := h.W i j

theorem tagEnd_step {p : PpsProp n} (h : TagInv p) {g : PpsTags n} {Ks Ls : Fin n → Prop} (he : TagEnd p.pass g Ks Ls) :
    TagEnd p g Ks Ls := by
  have hE := pass_ext h
  have hs : ∀ i, p.tags.s i ≠ 0 → p.pass.tags.s i = p.tags.s i := hE.s
  have ht : ∀ i, p.tags.t i ≠ 0 → p.pass.tags.t i = p.tags.t i := hE.t
  have hsn : ∀ i, ¬ Ks i → p.pass.tags.s i = p.tags.s i := fun i hi => by
    by_contra hne
    exact hi (he.ks i (hE.sNew i hne))
  have htn : ∀ i, ¬ Ls i → p.pass.tags.t i = p.tags.t i := fun i hi => by
    by_contra hne
    exact hi (he.ls i (hE.tNew i hne))
  refine ⟨he.tags, he.rows, he.cols, fun i hi => ?_, fun j hj => ?_, fun i hi => (he.sOut i hi).trans (hsn i hi),
    fun j hj => (he.tOut j hj).trans (htn j hj), fun i j hi hj => ?_, fun k hk => he.ks k (hE.ks k hk),
    fun l hl => he.ls l (hE.lambdas l hl)⟩
  · rw [he.sOld i (by rw [hs i hi]; exact hi), hs i hi]
  · rw [he.tOld j (by rw [ht j hj]; exact hj), ht j hj]
  · rw [he.wOut i j hi hj]
    rcases hE.quiet_left i j with e | e
    · exact e
    · rcases e.2.2.2 with h' | h'
      · exact absurd (he.ks _ h') hi
      · exact absurd (he.ls _ h') hj

/-- The loop ends after at most `tagZeros + 2` passes. -/
theorem run_ends (fuel : ℕ) (p : PpsProp n) (h : TagDue p) (hf : tagZeros p.tags + 2 ≤ fuel) :
    ∃ g Ks Ls, p.run fuel = some g ∧ TagEnd p g Ks Ls := by
  induction fuel generalizing p with
  | zero => omega
  | succ fuel ih =>
    unfold PpsProp.run
    split_ifs with hflag
    · have hE := pass_ext h.inv
      obtain ⟨z1, z2⟩ := tagZeros_ext hE ⟨rfl, rfl⟩
      by_cases hc : p.pass.sc = true ∨ p.pass.tc = true
      · have hz : tagZeros p.pass.tags < tagZeros p.tags := z2 hc
        obtain ⟨g, Ks, Ls, hr, he⟩ := ih p.pass (pass_due h) (by omega)
        exact ⟨g, Ks, Ls, hr, tagEnd_step h.inv he⟩
      · have hs : p.pass.sc = false := by
          cases hs : p.pass.sc with
          | true => exact absurd (.inl hs) hc
          | false => rfl
        have ht : p.pass.tc = false := by
          cases ht : p.pass.tc with
          | true => exact absurd (.inr ht) hc
          | false => rfl
        have hd := pass_due h
        have hend : TagEnd p.pass p.pass.tags (· ∈ p.pass.ks) (· ∈ p.pass.lambdas) := by
          refine ⟨hE.inv.tags, fun k hk => ⟨hE.inv.ks k hk, fun j => ?_⟩, fun l hl => ⟨hE.inv.lambdas l hl, fun i => ?_⟩,
            fun _ _ => rfl, fun _ _ => rfl, fun _ _ => rfl, fun _ _ => rfl, fun _ _ _ _ => rfl, fun _ h => h, fun _ h => h⟩
          · rcases hd.rows k hk j with e | e | e
            · exact e
            · rw [hs] at e; cases e
            · rw [ht] at e; cases e.1
          · rcases hd.cols l hl i with e | e | e
            · exact e
            · rw [ht] at e; cases e
            · rw [hs] at e; cases e.1
        refine ⟨p.pass.tags, (· ∈ p.pass.ks), (· ∈ p.pass.lambdas), ?_, tagEnd_step h.inv hend⟩
        obtain ⟨f, rfl⟩ : ∃ f, fuel = f + 1 := ⟨fuel - 1, by omega⟩
        unfold PpsProp.run
        split_ifs
        · rw [pass_still hE.inv hs ht]
          cases f with
          | zero => rfl
          | succ f => rfl
        · rfl
    · have hs : p.sc = false := by
        cases hs : p.sc with
        | true => exact absurd (by rw [hs]; simp) hflag
        | false => rfl
      have ht : p.tc = false := by
        cases ht : p.tc with
        | true => exact absurd (by rw [ht]; simp) hflag
        | false => rfl
      refine ⟨p.tags, (· ∈ p.ks), (· ∈ p.lambdas), rfl, h.inv.tags, fun k hk => ⟨h.inv.ks k hk, fun j => ?_⟩,
        fun l hl => ⟨h.inv.lambdas l hl, fun i => ?_⟩,
        fun _ _ => rfl, fun _ _ => rfl, fun _ _ => rfl, fun _ _ => rfl, fun _ _ _ _ => rfl, fun _ h => h, fun _ h => h⟩
      · rcases h.rows k hk j with e | e | e
        · exact e
        · rw [hs] at e; cases e
        · rw [ht] at e; cases e.1
      · rcases h.cols l hl i with e | e | e
        · exact e
        · rw [ht] at e; cases e
        · rw [hs] at e; cases e.1

/-- More fuel does not change a result. -/
theorem run_more (fuel : ℕ) (p : PpsProp n) (g : PpsTags n) (h : p.run fuel = some g) : p.run (fuel + 1) = some g := by
  induction fuel generalizing p with
  | zero =>
    unfold PpsProp.run at h
    split_ifs at h with hc
    cases h
    unfold PpsProp.run
    rw [if_neg hc]
  | succ k ih =>
    unfold PpsProp.run at h ⊢
    split_ifs at h ⊢ with hc
    · exact ih _ h
    · exact h

theorem run_mono {fuel fuel' : ℕ} (hle : fuel ≤ fuel') (p : PpsProp n) (g : PpsTags n) (h : p.run fuel = some g) :
    p.run fuel' = some g := by
  induction hle with
  | refl => exact h
  | step _ ih => exact run_more _ _ _ ih

/-! ### The calls of `split` -/

/-- What the propagation returns for the tags `g`: in the rows `Ks` and the columns `Ls` the matrix `W` is the product of
the tags, and outside them nothing has changed. -/
structure TagClosure (g g' : PpsTags n) (Ks Ls : Fin n → Prop) : Prop where
  tags : AreTags g'
  rows : ∀ k, Ks k → g'.s k ≠ 0 ∧ ∀ j, g'.W k j = g'.s k * g'.t j
  cols : ∀ l, Ls l → g'.t l ≠ 0 ∧ ∀ i, g'.W i l = g'.s i * g'.t l
  sOut : ∀ i, ¬ Ks i → g'.s i = g.s i
  tOut : ∀ j, ¬ Ls j → g'.t j = g.t j
  wOut : ∀ i j, ¬ Ks i → ¬ Ls j → g'.W i j = g.W i j

theorem tagZeros_le_row (g : PpsTags n) (i : Fin n) (h : g.s i ≠ 0) : tagZeros g + 1 ≤ 2 * n := by
  have h1 : (Finset.univ.filter fun i => g.s i = 0).card < n := by
    have : (Finset.univ.filter fun i => g.s i = 0) ⊂ Finset.univ :=
      ⟨Finset.subset_univ _, fun hs => h (Finset.mem_filter.1 (hs (Finset.mem_univ i))).2⟩
    simpa using Finset.card_lt_card this
  have h2 : (Finset.univ.filter fun j => g.t j = 0).card ≤ n := by
    simpa using Finset.card_le_card (Finset.filter_subset (fun j => g.t j = 0) Finset.univ)
  unfold tagZeros
  omega

theorem tagZeros_le_both (g : PpsTags n) (i j : Fin n) (h : g.s i ≠ 0) (h' : g.t j ≠ 0) : tagZeros g + 2 ≤ 2 * n := by
  have h1 : (Finset.univ.filter fun i => g.s i = 0).card < n := by
    have : (Finset.univ.filter fun i => g.s i = 0) ⊂ Finset.univ :=
      ⟨Finset.subset_univ _, fun hs => h (Finset.mem_filter.1 (hs (Finset.mem_univ i))).2⟩
    simpa using Finset.card_lt_card this
  have h2 : (Finset.univ.filter fun i => g.t i = 0).card < n := by
    have : (Finset.univ.filter fun i => g.t i = 0) ⊂ Finset.univ :=
      ⟨Finset.subset_univ _, fun hs => h' (Finset.mem_filter.1 (hs (Finset.mem_univ j))).2⟩
    simpa using Finset.card_lt_card this
  unfold tagZeros
  omega

/-- C122: after the choice of a tag for a row, the loop ends after at most `2 n + 1` passes for any tags, and returns the
closure: tags are only set where there were none. -/
theorem C122_row (g : PpsTags n) (hg : AreTags g) (i : Fin n) (v : ℤ) (hv : v = 1 ∨ v = -1) :
    ∃ g' Ks Ls, (∀ fuel, 2 * n + 1 ≤ fuel → (startS g i v).run fuel = some g') ∧
      TagClosure (startS g i v).tags g' Ks Ls ∧ Ks i ∧ g'.s i = v ∧
      (∀ k, k ≠ i → g.s k ≠ 0 → g'.s k = g.s k) ∧ ∀ j, g.t j ≠ 0 → g'.t j = g.t j := by
  have hv0 : v ≠ 0 := by rcases hv with rfl | rfl <;> decide
  have hsi : (startS g i v).tags.s i = v := if_pos rfl
  have hD : TagDue (startS g i v) := by
    refine ⟨⟨⟨hg.W, fun k => ?_, hg.t⟩, fun k hk => ?_, fun l hl => ?_, fun e he => ?_⟩, fun k hk j => .inr (.inl rfl), fun l hl => ?_⟩
    · dsimp only [startS, setComp]
      split_ifs
      · rcases hv with rfl | rfl
        · exact .inr (.inr rfl)
        · exact .inl rfl
      · exact hg.s k
    · have : k = i := List.mem_singleton.1 hk
      rw [this, hsi]
      exact hv0
    · cases hl
    · cases he
    · cases hl
  have hz := tagZeros_le_row _ i (by rw [hsi]; exact hv0)
  obtain ⟨g', Ks, Ls, hr, he⟩ := run_ends (2 * n + 1) _ hD (by omega)
  refine ⟨g', Ks, Ls, fun fuel hf => run_mono hf _ _ hr, ⟨he.tags, he.rows, he.cols, he.sOut, he.tOut, he.wOut⟩,
    he.ks i (List.mem_singleton.2 rfl), ?_, fun k hk hk0 => ?_, he.tOld⟩
  · rw [he.sOld i (by rw [hsi]; exact hv0), hsi]
  · have : (startS g i v).tags.s k = g.s k := if_neg hk
    rw [he.sOld k (by rw [this]; exact hk0), this]

theorem run_quiet (fuel : ℕ) (p : PpsProp n) (hw : p.wc = false) (hs : p.sc = false) (ht : p.tc = false) :
    p.run fuel = some p.tags := by
  cases fuel <;> · unfold PpsProp.run; rw [hw, hs, ht]; rfl

/-- C122: after the choice of a tag for an entry of the matrix, the loop ends after at most `2 n + 1` passes for any tags,
and returns the closure: apart from the tag of the row of the entry, tags are only set where there were none. -/
theorem C122_entry (g : PpsTags n) (hg : AreTags g) (i j : Fin n) (v : ℤ) (hv : v = 1 ∨ v = -1) :
    ∃ g' Ks Ls, (∀ fuel, 2 * n + 1 ≤ fuel → (startW g i j v).run fuel = some g') ∧
      TagClosure (startW g i j v).tags g' Ks Ls ∧ g'.W i j = v ∧ (g.s i ≠ 0 ∨ g.t j ≠ 0 → g'.s i * g'.t j = v) ∧
      (∀ k, k ≠ i → g.s k ≠ 0 → g'.s k = g.s k) ∧ ∀ l, g.t l ≠ 0 → g'.t l = g.t l := by
  have hv0 : v ≠ 0 := by rcases hv with rfl | rfl <;> decide
  have hvt : IsTag v := by rcases hv with rfl | rfl; exacts [.inr (.inr rfl), .inl rfl]
  have hWij : setEntry g.W i j v i j = v := if_pos ⟨rfl, rfl⟩
  have hgW : ∀ k l, IsTag (setEntry g.W i j v k l) := fun k l => by
    unfold setEntry
    split_ifs
    · exact hvt
    · exact hg.W k l
  have step : ∀ fuel, 2 * n + 1 ≤ fuel → (startW g i j v).run fuel = (startW g i j v).pass.run (fuel - 1) := by
    intro fuel hf
    obtain ⟨f, rfl⟩ : ∃ f, fuel = f + 1 := ⟨fuel - 1, by omega⟩
    rfl
  let q : PpsProp n := ⟨{ g with W := setEntry g.W i j v }, [(i, j)], [], [], false, false, false⟩
  have hpass : (startW g i j v).pass = PpsProp.phase5 (PpsProp.phase3 q) := rfl
  by_cases ht : g.t j = 0
  · have e3 : PpsProp.phase3 q = q := by
      show (if g.t j ≠ 0 then q.setS (i, j) else q) = q
      rw [if_neg (by simpa using ht)]
    by_cases hs : g.s i = 0
    · have e5 : PpsProp.phase5 q = q := by
        show (if g.s i ≠ 0 then q.setT (i, j) else q) = q
        rw [if_neg (by simpa using hs)]
      refine ⟨q.tags, fun _ => False, fun _ => False, fun fuel hf => ?_, ⟨⟨hgW, hg.s, hg.t⟩, fun _ h => h.elim, fun _ h => h.elim,
        fun _ _ => rfl, fun _ _ => rfl, fun _ _ _ _ => rfl⟩, hWij, ?_, fun _ _ _ => rfl, fun _ _ => rfl⟩
      · rw [step fuel hf, hpass, e3, e5]
        exact run_quiet _ _ rfl rfl rfl
      · rintro (h | h)
        · exact absurd hs h
        · exact absurd ht h
    · have e5 : PpsProp.phase5 q = q.setT (i, j) := by
        show (if g.s i ≠ 0 then q.setT (i, j) else q) = _
        rw [if_pos hs]
      have hd : v / g.s i ≠ 0 := (hg.s i).div_ne hs hv0
      have eT : q.setT (i, j) = ⟨{ W := setEntry g.W i j v, s := g.s, t := fun l => if l = j then v / g.s i else g.t l },
          [(i, j)], [], [j], false, false, true⟩ := by
        have hne : ¬ g.t j = setEntry g.W i j v i j / g.s i := by rw [hWij, ht]; exact fun h => hd h.symm
        simp only [q, PpsProp.setT, hWij, hne, if_false, decide_false, Bool.not_false, Bool.or_true, List.nil_append]
        rw [hWij] at hne
        simp only [hne, if_false, decide_false, Bool.not_false, Bool.or_true]
      let p1 := q.setT (i, j)
      have hp1 : p1 = _ := eT
      have tj : p1.tags.t j = v / g.s i := by rw [hp1]; exact if_pos rfl
      have hag : p1.tags.s i * p1.tags.t j = v := by
        rw [tj, hp1]
        show g.s i * (v / g.s i) = v
        rw [mul_comm]
        exact (hg.s i).div_mul hs
      have hD : TagDue p1 := by
        rw [hp1]
        refine ⟨⟨⟨hgW, hg.s, fun l => ?_⟩, fun k hk => (by cases hk), fun l hl => ?_, fun e he => ?_⟩, fun k hk => (by cases hk),
          fun l hl k => .inr (.inl rfl)⟩
        · dsimp only
          split_ifs
          · exact hvt.div (hg.s i)
          · exact hg.t l
        · have : l = j := List.mem_singleton.1 hl
          subst this
          show (if l = l then v / g.s i else g.t l) ≠ 0
          rw [if_pos rfl]
          exact hd
        · have : e = (i, j) := List.mem_singleton.1 he
          subst this
          rw [hp1] at hag tj
          refine ⟨hs, by rw [tj]; exact hd, ?_⟩
          exact hWij.trans hag.symm
      have hz := tagZeros_le_both p1.tags i j (by rw [hp1]; exact hs) (by rw [tj]; exact hd)
      obtain ⟨g', Ks, Ls, hr, he⟩ := run_ends (2 * n) p1 hD (by omega)
      have hsi : g'.s i = p1.tags.s i := he.sOld i (by rw [hp1]; exact hs)
      have htj : g'.t j = p1.tags.t j := he.tOld j (by rw [tj]; exact hd)
      have hLj : Ls j := he.ls j (by rw [hp1]; exact List.mem_singleton.2 rfl)
      refine ⟨g', Ks, Ls, fun fuel hf => ?_, ⟨he.tags, he.rows, he.cols, fun k hk => ?_, fun l hl => ?_, fun k l hk hl => ?_⟩, ?_,
        fun _ => ?_, fun k hk hk0 => ?_, fun l hl => ?_⟩
      · rw [step fuel hf, hpass, e3, e5]
        exact run_mono (by omega) _ _ hr
      · rw [he.sOut k hk, hp1]; rfl
      · rw [he.tOut l hl, hp1]
        exact if_neg fun (h : l = j) => hl (h ▸ hLj)
      · rw [he.wOut k l hk hl, hp1]; rfl
      · rw [(he.cols j hLj).2 i, hsi, htj, hag]
      · rw [hsi, htj, hag]
      · rw [he.sOld k (by rw [hp1]; exact hk0), hp1]
      · have hlj : l ≠ j := fun h => hl (h ▸ ht)
        have : p1.tags.t l = g.t l := by rw [hp1]; exact if_neg hlj
        rw [he.tOld l (by rw [this]; exact hl), this]
  · have e3 : PpsProp.phase3 q = q.setS (i, j) := by
      show (if g.t j ≠ 0 then q.setS (i, j) else q) = _
      rw [if_pos ht]
    have hd : v / g.t j ≠ 0 := (hg.t j).div_ne ht hv0
    by_cases hsame : g.s i = v / g.t j
    · have eS : q.setS (i, j) = q := setS_id (i, j) (by
        show setEntry g.W i j v i j / g.t j = g.s i
        rw [hWij, hsame])
      have hs : g.s i ≠ 0 := by rw [hsame]; exact hd
      have hag : g.s i * g.t j = v := by rw [hsame]; exact (hg.t j).div_mul ht
      have e5 : PpsProp.phase5 q = q := by
        show (if g.s i ≠ 0 then q.setT (i, j) else q) = q
        rw [if_pos hs]
        refine setT_id (i, j) ?_
        show setEntry g.W i j v i j / g.s i = g.t j
        rw [hWij, ← hag, mul_comm]
        exact (hg.s i).mul_div hs
      refine ⟨q.tags, fun _ => False, fun _ => False, fun fuel hf => ?_, ⟨⟨hgW, hg.s, hg.t⟩, fun _ h => h.elim, fun _ h => h.elim,
        fun _ _ => rfl, fun _ _ => rfl, fun _ _ _ _ => rfl⟩, hWij, fun _ => hag, fun _ _ _ => rfl, fun _ _ => rfl⟩
      rw [step fuel hf, hpass, e3, eS, e5]
      exact run_quiet _ _ rfl rfl rfl
    · have eS : q.setS (i, j) = ⟨{ W := setEntry g.W i j v, s := fun k => if k = i then v / g.t j else g.s k, t := g.t },
          [(i, j)], [i], [], false, true, false⟩ := by
        have hne : ¬ g.s i = setEntry g.W i j v i j / g.t j := by rw [hWij]; exact hsame
        simp only [q, PpsProp.setS, hWij, hne, if_false, decide_false, Bool.not_false, Bool.or_true, List.nil_append]
        simp only [hsame, if_false, decide_false, Bool.not_false, Bool.or_true]
      let p1 := q.setS (i, j)
      have hp1 : p1 = _ := eS
      have si : p1.tags.s i = v / g.t j := by rw [hp1]; exact if_pos rfl
      have hag : p1.tags.s i * p1.tags.t j = v := by
        rw [si, hp1]
        exact (hg.t j).div_mul ht
      have e5 : PpsProp.phase5 p1 = p1 := by
        have h0 : PpsProp.phase5 p1 = if p1.tags.s i ≠ 0 then p1.setT (i, j) else p1 := by rw [hp1]; rfl
        rw [h0, if_pos (by rw [si]; exact hd)]
        refine setT_id (i, j) ?_
        have : p1.tags.W i j = v := by rw [hp1]; exact hWij
        show p1.tags.W i j / p1.tags.s i = p1.tags.t j
        rw [this]
        conv_lhs => rw [← hag, mul_comm]
        refine IsTag.mul_div ?_ (by rw [si]; exact hd)
        rw [si]
        exact hvt.div (hg.t j)
      have hD : TagDue p1 := by
        rw [hp1]
        refine ⟨⟨⟨hgW, fun k => ?_, hg.t⟩, fun k hk => ?_, fun l hl => (by cases hl), fun e he => ?_⟩, fun k hk j => .inr (.inl rfl),
          fun l hl => (by cases hl)⟩
        · dsimp only
          split_ifs
          · exact hvt.div (hg.t j)
          · exact hg.s k
        · have : k = i := List.mem_singleton.1 hk
          subst this
          show (if k = k then v / g.t j else g.s k) ≠ 0
          rw [if_pos rfl]
          exact hd
        · have : e = (i, j) := List.mem_singleton.1 he
          subst this
          rw [hp1] at hag si
          refine ⟨by rw [si]; exact hd, ht, ?_⟩
          exact hWij.trans hag.symm
      have hz := tagZeros_le_both p1.tags i j (by rw [si]; exact hd) (by rw [hp1]; exact ht)
      obtain ⟨g', Ks, Ls, hr, he⟩ := run_ends (2 * n) p1 hD (by omega)
      have hsi : g'.s i = p1.tags.s i := he.sOld i (by rw [si]; exact hd)
      have htj : g'.t j = p1.tags.t j := he.tOld j (by rw [hp1]; exact ht)
      have hKi : Ks i := he.ks i (by rw [hp1]; exact List.mem_singleton.2 rfl)
      refine ⟨g', Ks, Ls, fun fuel hf => ?_, ⟨he.tags, he.rows, he.cols, fun k hk => ?_, fun l hl => ?_, fun k l hk hl => ?_⟩, ?_,
        fun _ => ?_, fun k hk hk0 => ?_, fun l hl => ?_⟩
      · rw [step fuel hf, hpass, e3, e5]
        exact run_mono (by omega) _ _ hr
      · rw [he.sOut k hk, hp1]
        exact if_neg fun (h : k = i) => hk (h ▸ hKi)
      · rw [he.tOut l hl, hp1]; rfl
      · rw [he.wOut k l hk hl, hp1]; rfl
      · rw [(he.rows i hKi).2 j, hsi, htj, hag]
      · rw [hsi, htj, hag]
      · have : p1.tags.s k = g.s k := by rw [hp1]; exact if_neg hk
        rw [he.sOld k (by rw [this]; exact hk0), this]
      · rw [he.tOld l (by rw [hp1]; exact hl), hp1]

end

/-- The bound is attained: two unknowns, five passes; the tags spread from the first row over all rows and columns. -/
example : let g : PpsTags 2 := ⟨![![0, -1], ![1, -1]], ![0, 0], ![0, 0]⟩
    AreTags g ∧ (startS g 0 1).run 4 = none ∧
      ((startS g 0 1).run 5).map (fun g => (List.ofFn g.s, List.ofFn g.t, List.ofFn fun i => List.ofFn (g.W i))) =
        some ([1, 1], [1, -1], [[1, -1], [1, -1]]) :=
  ⟨⟨by unfold IsTag; decide, by unfold IsTag; decide, by unfold IsTag; decide⟩, rfl, by decide +kernel⟩

/-- Contradictory tags: the entry `(0, 0)` gets the tag -1 although the row and the column have the tag 1; the tag of the row
is turned over, and the rest of the row with it. -/
example : let g : PpsTags 2 := ⟨![![0, 1], ![0, 1]], ![1, 1], ![1, 1]⟩
    AreTags g ∧
      ((startW g 0 0 (-1)).run 5).map (fun g => (List.ofFn g.s, List.ofFn g.t, List.ofFn fun i => List.ofFn (g.W i))) =
        some ([-1, 1], [1, 1], [[-1, -1], [0, 1]]) :=
  ⟨⟨by unfold IsTag; decide, by unfold IsTag; decide, by unfold IsTag; decide⟩, by decide +kernel⟩

/-! ## The whole function -/

section
variable {K : Type*} [Field K] [LinearOrder K] {n : ℕ}

/-- The answer of a step of the search with enough passes: the same for `P` and for `P` with `fuel'` passes, never "still
running", and the list holds tags. -/
def SameTags (x y : PpsRes (List (PpsEl K n) × K)) : Prop :=
  x = y ∧ x ≠ .error none ∧ ∀ p, x = .ok p → ∀ e ∈ p.1, AreTags e.tags

theorem split_same (P : PpsArg K n) (fuel' : ℕ) (hf : 2 * n + 1 ≤ P.fuel) (hf' : 2 * n + 1 ≤ fuel') (l0 : PpsEl K n)
    (omega : Option K) (ind fl : Bool) (Q : Fin n → Fin n → Iv K) (r : Fin n → Iv K) (st : PpsProp n)
    (rest : List (PpsEl K n))
    (hst : ∃ g, AreTags g ∧ ∀ fuel, 2 * n + 1 ≤ fuel → (if ind then st.run fuel else some st.tags) = some g)
    (hrest : ∀ e ∈ rest, AreTags e.tags) :
    SameTags (ppsSplit P l0 omega ind fl Q r st rest) (ppsSplit { P with fuel := fuel' } l0 omega ind fl Q r st rest) := by
  obtain ⟨g, hg, hr⟩ := hst
  unfold ppsSplit SameTags
  dsimp only
  rw [hr _ hf, hr _ hf']
  dsimp only
  cases P.hbr Q r with
  | error e => exact ⟨rfl, fun h => (by cases h), fun p h => by cases h⟩
  | ok vx =>
    dsimp only
    cases P.solve (fun i j => (Q i j).mid P.R) (fun i => (r i).mid P.R) with
    | error e => exact ⟨rfl, fun h => (by cases h), fun p h => by cases h⟩
    | ok mn =>
      dsimp only
      split_ifs
      · cases P.inverse Q with
        | error e => exact ⟨rfl, fun h => (by cases h), fun p h => by cases h⟩
        | ok Y =>
          refine ⟨rfl, fun h => (by cases h), fun p h e he => ?_⟩
          cases h
          unfold ppsInsert at he
          rcases List.eq_or_mem_of_mem_insertIdx he with h | h
          · rw [h]; exact hg
          · exact hrest e h
      · refine ⟨rfl, fun h => (by cases h), fun p h e he => ?_⟩
        cases h
        unfold ppsInsert at he
        rcases List.eq_or_mem_of_mem_insertIdx he with h | h
        · rw [h]; exact hg
        · exact hrest e h
      · refine ⟨rfl, fun h => (by cases h), fun p h e he => ?_⟩
        cases h
        exact hrest e he

theorem two_same (P : PpsArg K n) (fuel' : ℕ) (hf : 2 * n + 1 ≤ P.fuel) (hf' : 2 * n + 1 ≤ fuel') (l0 : PpsEl K n)
    (omega : Option K) (fl : Bool) (Q1 Q2 : Fin n → Fin n → Iv K) (r1 r2 : Fin n → Iv K) (st1 st2 : PpsProp n)
    (rest : List (PpsEl K n))
    (h1 : ∃ g, AreTags g ∧ ∀ fuel, 2 * n + 1 ≤ fuel → st1.run fuel = some g)
    (h2 : ∃ g, AreTags g ∧ ∀ fuel, 2 * n + 1 ≤ fuel → st2.run fuel = some g)
    (hrest : ∀ e ∈ rest, AreTags e.tags) :
    SameTags (ppsTwo P l0 omega fl Q1 Q2 r1 r2 st1 st2 rest)
      (ppsTwo { P with fuel := fuel' } l0 omega fl Q1 Q2 r1 r2 st1 st2 rest) := by
  obtain ⟨a1, a2, a3⟩ := split_same P fuel' hf hf' l0 omega true fl Q1 r1 st1 rest h1 hrest
  unfold ppsTwo SameTags
  rw [← a1]
  cases hx : ppsSplit P l0 omega true fl Q1 r1 st1 rest with
  | error e => exact ⟨rfl, fun h => (by cases h; exact a2 hx), fun p h => by cases h⟩
  | ok p1 =>
    dsimp only
    obtain ⟨b1, b2, b3⟩ := split_same P fuel' hf hf' l0 omega true fl Q2 r2 st2 p1.1 h2 (a3 p1 hx)
    rw [← b1]
    cases hy : ppsSplit P l0 omega true fl Q2 r2 st2 p1.1 with
    | error e => exact ⟨rfl, fun h => (by cases h; exact b2 hy), fun p h => by cases h⟩
    | ok p2 =>
      refine ⟨rfl, fun h => (by cases h), fun p h => ?_⟩
      cases h
      exact b3 p2 hy

theorem startW_end (g : PpsTags n) (hg : AreTags g) (i j : Fin n) (v : ℤ) (hv : v = 1 ∨ v = -1) :
    ∃ g', AreTags g' ∧ ∀ fuel, 2 * n + 1 ≤ fuel → (startW g i j v).run fuel = some g' := by
  obtain ⟨g', Ks, Ls, h1, h2, -⟩ := C122_entry g hg i j v hv
  exact ⟨g', h2.tags, h1⟩

theorem startS_end (g : PpsTags n) (hg : AreTags g) (i : Fin n) (v : ℤ) (hv : v = 1 ∨ v = -1) :
    ∃ g', AreTags g' ∧ ∀ fuel, 2 * n + 1 ≤ fuel → (startS g i v).run fuel = some g' := by
  obtain ⟨g', Ks, Ls, h1, h2, -⟩ := C122_row g hg i v hv
  exact ⟨g', h2.tags, h1⟩

theorem descend_same (P : PpsArg K n) (fuel' : ℕ) (hf : 2 * n + 1 ≤ P.fuel) (hf' : 2 * n + 1 ≤ fuel') (omega : Option K)
    (l : PpsEl K n) (big : Bool) (ij : Fin n × Fin n) (i2 : Fin n) (rest : List (PpsEl K n)) (hl : AreTags l.tags)
    (hrest : ∀ e ∈ rest, AreTags e.tags) :
    SameTags (ppsDescend P omega l big ij i2 rest) (ppsDescend { P with fuel := fuel' } omega l big ij i2 rest) := by
  unfold ppsDescend
  dsimp only
  have h0 : ∃ g, AreTags g ∧ ∀ fuel, 2 * n + 1 ≤ fuel →
      (if false = true then (startNone l.tags).run fuel else some (startNone l.tags).tags) = some g :=
    ⟨l.tags, hl, fun _ _ => rfl⟩
  split_ifs
  · exact two_same P fuel' hf hf' l omega true _ _ _ _ _ _ rest (startW_end _ hl _ _ 1 (.inl rfl))
      (startW_end _ hl _ _ (-1) (.inr rfl)) hrest
  · exact split_same P fuel' hf hf' l omega false true _ _ _ rest h0 hrest
  · exact split_same P fuel' hf hf' l omega false true _ _ _ rest h0 hrest
  · exact two_same P fuel' hf hf' l omega false _ _ _ _ _ _ rest (startS_end _ hl _ (-1) (.inr rfl))
      (startS_end _ hl _ 1 (.inl rfl)) hrest
  · exact split_same P fuel' hf hf' l omega false false _ _ _ rest h0 hrest
  · exact split_same P fuel' hf hf' l omega false false _ _ _ rest h0 hrest

theorem monotone_tags (P : PpsArg K n) (e : PpsEl K n) (h : AreTags e.tags) : AreTags (ppsMonotone P e).tags := by
  refine ⟨fun i j => ?_, fun i => ?_, h.t⟩
  · dsimp only [ppsMonotone]
    split_ifs
    · exact .inl rfl
    · exact .inr (.inr rfl)
    · exact h.W i j
  · dsimp only [ppsMonotone]
    split_ifs
    · exact .inr (.inr rfl)
    · exact .inl rfl
    · exact h.s i

theorem refine_tags (g : PpsTags n) (im jm : Fin n) (h : AreTags g) : AreTags (ppsRefine g im jm) := by
  unfold ppsRefine
  split
  · exact h
  · refine ⟨fun i j => ?_, h.s, h.t⟩
    dsimp only
    split_ifs
    · exact ((h.W _ _).mul (h.W _ _)).mul (h.W _ _)
    · exact h.W i j

theorem body_same (P : PpsArg K n) (fuel' : ℕ) (hf : 2 * n + 1 ≤ P.fuel) (hf' : 2 * n + 1 ≤ fuel') (omega : Option K)
    (l : PpsEl K n) (rest : List (PpsEl K n)) (hl : AreTags l.tags) (hrest : ∀ e ∈ rest, AreTags e.tags) :
    SameTags (ppsBody P omega l rest) (ppsBody { P with fuel := fuel' } omega l rest) := by
  unfold ppsBody
  show SameTags (match argmaxOn (ppsMat P (ppsD P l) (ppsMonotone P l)) (allPairs n),
      argmaxOn (ppsVec P (ppsMonotone P l)) (List.finRange n) with
    | some ij, some i2 => _
    | _, _ => _) (match argmaxOn (ppsMat P (ppsD P l) (ppsMonotone P l)) (allPairs n),
      argmaxOn (ppsVec P (ppsMonotone P l)) (List.finRange n) with
    | some ij, some i2 => _
    | _, _ => _)
  split
  · exact descend_same P fuel' hf hf' omega _ _ _ _ rest (refine_tags _ _ _ (monotone_tags P l hl)) hrest
  · exact ⟨rfl, fun h => (by cases h), fun p h => by cases h⟩

theorem loop_same (P : PpsArg K n) (fuel' : ℕ) (hf : 2 * n + 1 ≤ P.fuel) (hf' : 2 * n + 1 ≤ fuel') (k : ℕ)
    (omega ocenka : Option K) (l : PpsEl K n) (rest : List (PpsEl K n)) (hl : AreTags l.tags)
    (hrest : ∀ e ∈ rest, AreTags e.tags) :
    ppsLoop P k omega ocenka l rest = ppsLoop { P with fuel := fuel' } k omega ocenka l rest ∧
      ppsLoop P k omega ocenka l rest ≠ .error none := by
  induction k generalizing omega ocenka l rest with
  | zero =>
    unfold ppsLoop
    refine ⟨rfl, ?_⟩
    cases ocenka <;> exact fun h => by cases h
  | succ k ih =>
    obtain ⟨a1, a2, a3⟩ := body_same P fuel' hf hf' omega l rest hl hrest
    unfold ppsLoop
    rw [← a1]
    dsimp only
    split_ifs
    · cases hx : ppsBody P omega l rest with
      | error e => exact ⟨rfl, fun h => by cases h; exact a2 hx⟩
      | ok p =>
        dsimp only
        have hmem : ∀ e ∈ p.1.filter fun e => decide (e.gamma ≤ ppsOmega p.2 omega), AreTags e.tags :=
          fun e he => a3 p hx e (List.mem_filter.1 he).1
        generalize p.1.filter (fun e => decide (e.gamma ≤ ppsOmega p.2 omega)) = L at hmem ⊢
        cases L with
        | nil => exact ⟨rfl, fun h => by cases h⟩
        | cons l' rest' =>
          exact ih _ _ l' rest' (hmem l' List.mem_cons_self) fun e he => hmem e (List.mem_cons_of_mem _ he)
    · refine ⟨rfl, ?_⟩
      cases ocenka <;> exact fun h => by cases h

theorem run_same (P : PpsArg K n) (fuel' : ℕ) (hf : 2 * n + 1 ≤ P.fuel) (hf' : 2 * n + 1 ≤ fuel') (maxiter : ℤ)
    (A invA : Fin n → Fin n → Iv K) (b : Fin n → Iv K) :
    ppsAlgo P maxiter A invA b = ppsAlgo { P with fuel := fuel' } maxiter A invA b ∧ ppsAlgo P maxiter A invA b ≠ .error none := by
  unfold ppsAlgo ppsRun
  dsimp only
  cases P.hbr A b with
  | error e => exact ⟨rfl, fun h => by cases h⟩
  | ok vx =>
    dsimp only
    obtain ⟨a1, a2⟩ := loop_same P fuel' hf hf' (maxiter + 1).toNat none none
      ⟨(vx P.nu).a, A, b, invA, vx, ⟨fun _ _ => 0, fun _ => 0, fun _ => 0⟩⟩ []
      ⟨fun _ _ => .inr (.inl rfl), fun _ => .inr (.inl rfl), fun _ => .inr (.inl rfl)⟩ (fun e he => by cases he)
    rw [← a1]
    cases hx : ppsLoop P (maxiter + 1).toNat none none
      ⟨(vx P.nu).a, A, b, invA, vx, ⟨fun _ _ => 0, fun _ => 0, fun _ => 0⟩⟩ [] with
    | error e => exact ⟨rfl, fun h => by cases h; exact a2 hx⟩
    | ok p => exact ⟨rfl, fun h => by cases h⟩

theorem ppsBounds_same (f f' : Fin n → PpsRes K) (h : ∀ i, f i = f' i ∧ f i ≠ .error none) (is : List (Fin n)) :
    ppsBounds f is = ppsBounds f' is ∧ ppsBounds f is ≠ .error none := by
  have : f = f' := funext fun i => (h i).1
  subst this
  refine ⟨rfl, ?_⟩
  induction is with
  | nil => exact fun h => by cases h
  | cons i is ih =>
    unfold ppsBounds
    cases hx : f i with
    | error e => exact fun h' => by cases h'; exact (h i).2 hx
    | ok v =>
      dsimp only
      cases hy : ppsBounds f is with
      | error e => exact fun h' => by cases h'; exact ih hy
      | ok vs => exact fun h' => by cases h'

/-- C122: the propagation of the tags never keeps `PPS` from ending, for any system, any results of the inversion and of the
solver, any tolerance and any limit on the passes: `2 n + 1` passes of the inner loop are always enough, and the answer
does not depend on a larger bound. -/
theorem C122_pps_ends (R : Rnd K) (inv : (Fin n → Fin n → K) → Except Err (Fin n → Fin n → K))
    (solve : (Fin n → Fin n → K) → (Fin n → K) → Except Err (Fin n → K)) (tol : K) (fuel fuel' : ℕ)
    (hf : 2 * n + 1 ≤ fuel) (hf' : 2 * n + 1 ≤ fuel') (maxiter : ℤ) (A : Fin n → Fin n → Iv K) (b : Fin n → Iv K)
    (nu : Option (Fin n)) :
    pps R inv solve tol fuel maxiter A b nu = pps R inv solve tol fuel' maxiter A b nu ∧
      pps R inv solve tol fuel maxiter A b nu ≠ .error none := by
  have hsame : ∀ (invA : Fin n → Fin n → Iv K) (c : Fin n → Iv K) (k : Fin n),
      ppsAlgo (ppsArg R inv solve tol fuel k) maxiter A invA c = ppsAlgo (ppsArg R inv solve tol fuel' k) maxiter A invA c ∧
        ppsAlgo (ppsArg R inv solve tol fuel k) maxiter A invA c ≠ .error none :=
    fun invA c k => run_same (ppsArg R inv solve tol fuel k) fuel' hf hf' maxiter A invA c
  unfold pps
  split_ifs
  · exact ⟨rfl, fun h => by cases h⟩
  · cases ppsInverse R A with
    | error e => exact ⟨rfl, fun h => by cases h⟩
    | ok invA =>
      dsimp only
      obtain ⟨a1, a2⟩ := ppsBounds_same _ _ (hsame invA (ppsPlus R b)) (nu.elim (List.finRange n) fun k => [k])
      obtain ⟨b1, b2⟩ := ppsBounds_same _ _ (hsame invA (ppsMinus R b)) (nu.elim (List.finRange n) fun k => [k])
      rw [← a1, ← b1]
      cases hx : ppsBounds (fun k => ppsAlgo (ppsArg R inv solve tol fuel k) maxiter A invA (ppsPlus R b))
          (nu.elim (List.finRange n) fun k => [k]) with
      | error e => exact ⟨rfl, fun h => by cases h; exact a2 hx⟩
      | ok lo =>
        dsimp only
        cases hy : ppsBounds (fun k => ppsAlgo (ppsArg R inv solve tol fuel k) maxiter A invA (ppsMinus R b))
            (nu.elim (List.finRange n) fun k => [k]) with
        | error e => exact ⟨rfl, fun h => by cases h; exact b2 hy⟩
        | ok hi => exact ⟨rfl, fun h => by cases h⟩

end

/-- The system of `C79_false` needs no more than 5 passes of the inner loop. -/
example : pps Rnd.exact ppsInv2 ppsSolve2 (1/1000) 5 2000 ppsZeroA ppsZeroB none =
    pps Rnd.exact ppsInv2 ppsSolve2 (1/1000) 20 2000 ppsZeroA ppsZeroB none :=
  (C122_pps_ends _ _ _ _ 5 20 (by decide) (by decide) _ _ _ _).1

example : ppsEnds (pps Rnd.exact ppsInv2 ppsSolve2 (1/1000) 5 2000 ppsZeroA ppsZeroB none) = some [(-1/2, 1), (1, 1)] := by
  decide +kernel

end IntvalPy
