import Verif.ModelArrayOps
import Verif.PropsGauss
import Verif.PropsNeumaier

/-!
# Properties C91, C92: mixed arithmetic of arrays, intervals and numbers
-/

set_option autoImplicit false
set_option linter.unusedSectionVars false

namespace IntvalPy

open Spec

variable {K : Type*} [Field K] [LinearOrder K] [IsStrictOrderedRing K]

/-! ## Specification: numpy arithmetic of numbers, points of operands -/

/-- The operator on numbers. -/
def ArOp.fn : ArOp → K → K → K
  | .add => fun s t => s + t
  | .sub => fun s t => s - t
  | .mul => fun s t => s * t
  | .div => fun s t => s / t

/-- A number or a one-dimensional array of numbers. -/
inductive Val (K : Type*)
  | one (c : K)
  | many (v : List K)

/-- numpy's arithmetic of numbers and one-dimensional arrays; `none` when the shapes do not fit. -/
def numOp (f : K → K → K) : Val K → Val K → Option (Val K)
  | .one a, .one b => some (.one (f a b))
  | .one a, .many v => some (.many (v.map (f a)))
  | .many u, .one b => some (.many (u.map fun a => f a b))
  | .many [a], .many v => some (.many (v.map (f a)))
  | .many u, .many [b] => some (.many (u.map fun a => f a b))
  | .many u, .many v => if u.length = v.length then some (.many (List.zipWith f u v)) else none

/-- `p` is a selection of points from the operand. -/
def IsPoint : Opd K → Val K → Prop
  | .num c, .one x => x = c
  | .iv X, .one x => x ∈ X
  | .arr A, .many v => List.Forall₂ (fun (x : K) (X : Iv K) => x ∈ X) v A
  | .npa v, .many w => w = v
  | _, _ => False

/-- All intervals of the operand are ordinary. -/
def OrdOpd : Opd K → Prop
  | .iv X => Ordinary X
  | .arr A => ∀ X ∈ A, Ordinary X
  | _ => True

/-- The result has the shape of `s` and contains it. -/
def ResContains : OpRes K → Val K → Prop
  | .interval X, .one x => x ∈ X
  | .array l, .many v => List.Forall₂ (fun (x : K) (o : Option (Iv K)) => ∃ Z, o = some Z ∧ x ∈ Z) v l
  | .objects l, .many v => List.Forall₂ (fun (x : K) (o : Option (Iv K)) => ∃ Z, o = some Z ∧ x ∈ Z) v l
  | _, _ => False

/-- The operand contains zero (somewhere). -/
def HasZero : Opd K → Prop
  | .num c => c = 0
  | .iv X => (0 : K) ∈ X
  | .arr A => ∃ X ∈ A, (0 : K) ∈ X
  | .npa v => (0 : K) ∈ v

/-- The reciprocals of the numbers among the divisors are representable. -/
def NumRecip (R : Rnd K) : Opd K → Prop
  | .num c => R.nr (1 / c) = 1 / c
  | .npa v => ∀ c ∈ v, R.nr (1 / c) = 1 / c
  | _ => True

/-! ## Elements -/

theorem elemII_mem (R : Rnd K) (op : ArOp) {X Y Z : Iv K} (hX : Ordinary X) (hY : Ordinary Y)
    (h : elemII R op X Y = .ok Z) {x y : K} (hx : x ∈ X) (hy : y ∈ Y) : op.fn x y ∈ Z := by
  cases op with
  | add => cases h; exact C01_add_encloses R X Y _ ⟨x, hx, y, hy, rfl⟩
  | sub => cases h; exact C01_sub_encloses R X Y _ ⟨x, hx, y, hy, rfl⟩
  | mul => cases h; exact C02_mul_encloses R X Y hX hY _ ⟨x, hx, y, hy, rfl⟩
  | div => exact C03_div_encloses R X Y Z hX hY h _ ⟨x, hx, y, hy, rfl⟩

theorem elemIN_mem (R : Rnd K) (op : ArOp) {X Z : Iv K} {c : K} (hX : Ordinary X)
    (hc : op = .div → R.nr (1 / c) = 1 / c) (h : elemIN R op X c = .ok Z) {x : K} (hx : x ∈ X) : op.fn x c ∈ Z := by
  cases op with
  | add => cases h; exact (C05_radd_rsub_enclose R c X).2.2.2.1 _ ⟨x, hx, rfl⟩
  | sub => cases h; exact (C05_radd_rsub_enclose R c X).2.2.2.2 _ ⟨x, hx, rfl⟩
  | mul => cases h; exact (C05_rmul_encloses R c X hX).2.1 _ ⟨x, hx, rfl⟩
  | div => exact (C04_divNum_encloses_partial R X c Z hX (hc rfl) h).2.2 _ ⟨x, hx, rfl⟩

theorem elemNI_mem (R : Rnd K) (op : ArOp) {X Z : Iv K} {c : K} (hX : Ordinary X)
    (h : elemNI R op c X = .ok Z) {x : K} (hx : x ∈ X) : op.fn c x ∈ Z := by
  cases op with
  | add => cases h; exact (C05_radd_rsub_enclose R c X).1 _ ⟨x, hx, rfl⟩
  | sub => cases h; exact (C05_radd_rsub_enclose R c X).2.1 _ ⟨x, hx, rfl⟩
  | mul => cases h; exact (C05_rmul_encloses R c X hX).1 _ ⟨x, hx, rfl⟩
  | div => exact C05_rdiv_encloses R c X Z hX h _ ⟨x, hx, rfl⟩

/-! ## Loops -/

theorem objLoop_ok {α β : Type*} (f : α → Except Err β) :
    ∀ (l : List α) (s : List β), objLoop f l = .ok s ↔ List.Forall₂ (fun x y => f x = .ok y) l s
  | [], s => by
      cases s <;> simp [objLoop]
  | x :: t, s => by
      cases hx : f x with
      | error e => cases s <;> simp [objLoop, hx]
      | ok y =>
        cases ht : objLoop f t with
        | error e =>
          cases s with
          | nil => simp [objLoop, hx, ht]
          | cons z zs =>
            simp only [objLoop, hx, ht, List.forall₂_cons, ← objLoop_ok f t]
            simp
        | ok ys =>
          cases s with
          | nil => simp [objLoop, hx, ht]
          | cons z zs =>
            simp only [objLoop, hx, ht, List.forall₂_cons, ← objLoop_ok f t]
            simp

/-- The loop fails exactly when an element fails, with the exception of the first such element. -/
theorem objLoop_error {α β : Type*} (f : α → Except Err β) :
    ∀ (l : List α) (e : Err), objLoop f l = .error e ↔
      ∃ l1 x l2, l = l1 ++ x :: l2 ∧ f x = .error e ∧ ∀ y ∈ l1, ∃ z, f y = .ok z
  | [], e => by simp [objLoop]
  | x :: t, e => by
      cases hx : f x with
      | error e' =>
        simp only [objLoop, hx]
        constructor
        · intro h; cases h; exact ⟨[], x, t, rfl, hx, by simp⟩
        · rintro ⟨l1, y, l2, hl, hy, h1⟩
          cases l1 with
          | nil => simp only [List.nil_append, List.cons.injEq] at hl; rw [← hl.1, hx] at hy; cases hy; rfl
          | cons z zs =>
            simp only [List.cons_append, List.cons.injEq] at hl
            obtain ⟨w, hw⟩ := h1 z (by simp)
            rw [← hl.1, hx] at hw; cases hw
      | ok y =>
        have ih := objLoop_error f t e
        constructor
        · intro h
          have ht : objLoop f t = .error e := by
            cases ht : objLoop f t with
            | error e' => simp only [objLoop, hx, ht] at h; exact h
            | ok ys => simp only [objLoop, hx, ht] at h; cases h
          obtain ⟨l1, z, l2, rfl, hz, h1⟩ := ih.1 ht
          refine ⟨x :: l1, z, l2, rfl, hz, ?_⟩
          intro w hw
          rcases List.mem_cons.1 hw with rfl | hw
          · exact ⟨y, hx⟩
          · exact h1 w hw
        · rintro ⟨l1, z, l2, hl, hz, h1⟩
          cases l1 with
          | nil =>
            simp only [List.nil_append, List.cons.injEq] at hl
            rw [← hl.1, hx] at hz; cases hz
          | cons w ws =>
            simp only [List.cons_append, List.cons.injEq] at hl
            have : objLoop f t = .error e := ih.2 ⟨ws, z, l2, hl.2, hz, fun y hy => h1 y (by simp [hy])⟩
            simp only [objLoop, hx, this]

theorem npVec_ok {α β : Type*} {f : α → β} {l : List α} {s : List β} (h : npVec f l = .ok s) :
    l ≠ [] ∧ s = l.map f := by
  unfold npVec at h
  split at h
  · cases h
  · rename_i hl; cases h; exact ⟨by simpa using hl, rfl⟩

/-- Selecting points commutes with broadcasting. -/
theorem bcast_points {α β : Type*} (r1 : K → α → Prop) (r2 : K → β → Prop) (f : K → K → K) {u v : List K}
    {A : List α} {B : List β} {l : List (α × β)} (h1 : List.Forall₂ r1 u A) (h2 : List.Forall₂ r2 v B)
    (h : npBroadcast2 A B = .ok l) :
    ∃ w : List (K × K), List.Forall₂ (fun (p : K × K) (q : α × β) => r1 p.1 q.1 ∧ r2 p.2 q.2) w l ∧
      numOp f (.many u) (.many v) = some (.many (w.map fun p => f p.1 p.2)) := by
  have zipcase : ∀ {u v : List K} {A : List α} {B : List β}, List.Forall₂ r1 u A → List.Forall₂ r2 v B →
      A.length = B.length → List.Forall₂ (fun (p : K × K) (q : α × β) => r1 p.1 q.1 ∧ r2 p.2 q.2)
        (u.zip v) (A.zip B) := by
    intro u v A B h1
    induction h1 generalizing v B with
    | nil => intro _ _; simp
    | cons hx _ ih =>
      intro h2 he
      cases h2 with
      | nil => simp at he
      | cons hy h2 => exact .cons ⟨hx, hy⟩ (ih h2 (by simpa using he))
  have e1 := h1.length_eq
  have e2 := h2.length_eq
  rcases npBroadcast2_spec _ _ _ h with ⟨he, rfl⟩ | ⟨a, rfl, rfl⟩ | ⟨b, rfl, rfl⟩
  · refine ⟨u.zip v, zipcase h1 h2 he, ?_⟩
    have huv : u.length = v.length := by omega
    have hz : List.map (fun p : K × K => f p.1 p.2) (u.zip v) = List.zipWith f u v := by
      simp [List.zip, List.map_zipWith]
    rw [hz]
    match u, v, huv with
    | [], [], _ => rfl
    | [a], [b], _ => rfl
    | _ :: _ :: _, _ :: _ :: _, huv => simp only [numOp, if_pos huv]
  · cases h1 with
    | cons ha hn =>
      cases hn
      rename_i x
      refine ⟨v.map fun y => (x, y), ?_, by simp [numOp, Function.comp_def]⟩
      rw [List.forall₂_map_left_iff, List.forall₂_map_right_iff]
      exact h2.imp fun _ _ hy => ⟨ha, hy⟩
  · cases h2 with
    | cons hb hn =>
      cases hn
      rename_i y
      refine ⟨u.map fun x => (x, y), ?_, ?_⟩
      · rw [List.forall₂_map_left_iff, List.forall₂_map_right_iff]
        exact h1.imp fun _ _ hx => ⟨hx, hb⟩
      · match u with
        | [] => simp [numOp]
        | [a] => simp [numOp]
        | a :: b :: t => simp [numOp, Function.comp_def]

/-- Element-wise evaluation of paired operands encloses. -/
theorem loop_mem {α : Type*} (g : α → Except Err (Iv K)) (P : K → α → Prop)
    (hg : ∀ s a Z, P s a → g a = .ok Z → s ∈ Z) {l : List α} {s : List (Iv K)} (h : objLoop g l = .ok s)
    {v : List K} (hv : List.Forall₂ P v l) :
    List.Forall₂ (fun (x : K) (o : Option (Iv K)) => ∃ Z, o = some Z ∧ x ∈ Z) v (s.map some) := by
  rw [objLoop_ok] at h
  rw [List.forall₂_map_right_iff]
  induction hv generalizing s with
  | nil => cases h; exact .nil
  | cons hp _ ih =>
    cases h with
    | cons h1 h2 => exact .cons ⟨_, rfl, hg _ _ _ hp h1⟩ (ih h2)

theorem recip_mem (R : Rnd K) {X q : Iv K} (hX : Ordinary X) (h0 : ¬ (0 : K) ∈ X)
    (h : Iv.recip R X.cls X = .ok q) : Ordinary q ∧ ∀ x ∈ X, 1 / x ∈ q := recip_pivot R X q hX h0 h

theorem some_map_mem {α : Type*} (g : α → Iv K) (P : K → α → Prop) (hg : ∀ s a, P s a → s ∈ g a) {l : List α}
    {v : List K} (hv : List.Forall₂ P v l) :
    List.Forall₂ (fun (x : K) (o : Option (Iv K)) => ∃ Z, o = some Z ∧ x ∈ Z) v (l.map fun a => some (g a)) := by
  rw [List.forall₂_map_right_iff]
  exact hv.imp fun _ _ h => ⟨_, rfl, hg _ _ h⟩

theorem forall₂_map_self {α β : Type*} {P : α → β → Prop} {g : α → β} {l : List α} (h : ∀ a ∈ l, P a (g a)) :
    List.Forall₂ P l (l.map g) := by
  rw [List.forall₂_map_right_iff]
  induction l with
  | nil => exact .nil
  | cons a t ih => exact .cons (h a (by simp)) (ih fun b hb => h b (by simp [hb]))

theorem forall₂_of_loop {α β : Type*} {P : α → β → Prop} {g : α → Except Err β} {l : List α} {s : List β}
    (h : objLoop g l = .ok s) (hg : ∀ a ∈ l, ∀ b, g a = .ok b → P a b) : List.Forall₂ P l s := by
  rw [objLoop_ok] at h
  induction h with
  | nil => exact .nil
  | cons h1 _ ih => exact .cons (hg _ (by simp) _ h1) (ih fun a ha => hg a (by simp [ha]))

theorem rdiv_one (R : Rnd K) {X q : Iv K} (hX : Ordinary X) (h : Iv.rdiv R 1 X = .ok q) :
    Ordinary q ∧ (∀ x ∈ X, x ≠ 0 ∧ 1 / x ∈ q) := by
  have h0 : ¬ (0 : K) ∈ X := fun h0 => by
    rw [((C05_rdiv_error_iff R 1 X hX).1).mpr h0] at h; cases h
  have h1 : ∀ x ∈ X, 1 / x ∈ q := fun x hx => C05_rdiv_encloses R 1 X q hX h _ ⟨x, hx, rfl⟩
  refine ⟨?_, fun x hx => ⟨fun e => h0 (e ▸ hx), h1 x hx⟩⟩
  have hc : X.containsNum 0 = false := by simpa using fun h => h0 (containsNum_iff.mp h)
  simp only [Iv.rdiv, hc, Bool.false_eq_true, if_false] at h
  cases hr : Iv.recip R X.cls X with
  | error e => rw [hr] at h; cases h
  | ok q' =>
    rw [hr] at h; cases h
    exact (C05_rmul_encloses R 1 q' (recip_mem R hX h0 hr).1).2.2

theorem numArr_mem (R : Rnd K) (op : ArOp) {c : K} {A s : List (Iv K)} (hA : ∀ X ∈ A, Ordinary X)
    (h : numArr R c A op = .ok s) : List.Forall₂ (fun X Z => ∀ x ∈ X, op.fn c x ∈ Z) A s := by
  cases op with
  | add => cases h; exact forall₂_map_self fun X hX x hx => elemNI_mem R .add (hA X hX) rfl hx
  | sub => cases h; exact forall₂_map_self fun X hX x hx => elemNI_mem R .sub (hA X hX) rfl hx
  | mul => cases h; exact forall₂_map_self fun X hX x hx => elemNI_mem R .mul (hA X hX) rfl hx
  | div =>
    simp only [numArr] at h
    split at h
    · cases h
    · rename_i Q hQ
      cases h
      rw [List.forall₂_map_right_iff]
      refine forall₂_of_loop hQ fun X hX q hq x hx => ?_
      obtain ⟨oq, hq'⟩ := rdiv_one R (hA X hX) hq
      have := (C05_rmul_encloses R c q oq).2.1 (1 / x * c) ⟨1 / x, (hq' x hx).2, rfl⟩
      rwa [show ArOp.fn .div c x = 1 / x * c by simp only [ArOp.fn]; ring]

theorem arrIv_mem (R : Rnd K) (op : ArOp) {X : Iv K} {A s : List (Iv K)} (hA : ∀ o ∈ A, Ordinary o)
    (hX : Ordinary X) (h0 : op = .div → ¬ (0 : K) ∈ X) (h : arrIv R A X op = .ok s) :
    List.Forall₂ (fun o Z => ∀ x ∈ o, ∀ y ∈ X, op.fn x y ∈ Z) A s := by
  cases op with
  | add =>
    obtain ⟨-, rfl⟩ := npVec_ok h
    exact forall₂_map_self fun o ho x hx y hy => elemII_mem R .add (hA o ho) hX rfl hx hy
  | sub =>
    obtain ⟨-, rfl⟩ := npVec_ok h
    refine forall₂_map_self fun o ho x hx y hy => ?_
    have := C01_add_encloses R o X.neg (x + -y) ⟨x, hx, -y, (C01_neg_range X hX.2).1 _ ⟨y, hy, rfl⟩, rfl⟩
    rwa [← sub_eq_add_neg] at this
  | mul =>
    obtain ⟨-, rfl⟩ := npVec_ok h
    exact forall₂_map_self fun o ho x hx y hy => elemII_mem R .mul (hA o ho) hX rfl hx hy
  | div =>
    simp only [arrIv] at h
    split at h
    · cases h
    · rename_i q hq
      obtain ⟨-, rfl⟩ := npVec_ok h
      obtain ⟨oq, hq'⟩ := recip_mem R hX (h0 rfl) hq
      refine forall₂_map_self fun o ho x hx y hy => ?_
      have := C02_mul_encloses R o q (hA o ho) oq (x * (1 / y)) ⟨x, hx, 1 / y, hq' y hy, rfl⟩
      rwa [mul_one_div] at this

theorem ivArr_mem (R : Rnd K) (op : ArOp) {X : Iv K} {A s : List (Iv K)} (hA : ∀ o ∈ A, Ordinary o)
    (hX : Ordinary X) (h : ivArr R X A op = .ok s) :
    List.Forall₂ (fun o Z => ∀ x ∈ X, ∀ y ∈ o, op.fn x y ∈ Z) A s := by
  cases op with
  | add =>
    obtain ⟨-, rfl⟩ := npVec_ok h
    refine forall₂_map_self fun o ho x hx y hy => ?_
    have := elemII_mem R .add (hA o ho) hX rfl hy hx
    rwa [show ArOp.fn .add x y = ArOp.fn .add y x from add_comm x y]
  | sub =>
    obtain ⟨-, rfl⟩ := npVec_ok h
    rw [List.map_map]
    refine forall₂_map_self fun o ho x hx y hy => ?_
    have := C01_add_encloses R o.neg X (-y + x) ⟨-y, (C01_neg_range o (hA o ho).2).1 _ ⟨y, hy, rfl⟩, x, hx, rfl⟩
    rwa [show ArOp.fn .sub x y = -y + x by simp only [ArOp.fn]; ring]
  | mul =>
    obtain ⟨-, rfl⟩ := npVec_ok h
    refine forall₂_map_self fun o ho x hx y hy => ?_
    have := elemII_mem R .mul (hA o ho) hX rfl hy hx
    rwa [show ArOp.fn .mul x y = ArOp.fn .mul y x from mul_comm x y]
  | div =>
    simp only [ivArr] at h
    split at h
    · cases h
    · rename_i Q hQ
      obtain ⟨-, rfl⟩ := npVec_ok h
      rw [List.map_map, List.forall₂_map_right_iff]
      refine forall₂_of_loop hQ fun o ho q hq x hx y hy => ?_
      obtain ⟨oq, hq'⟩ := rdiv_one R (hA o ho) hq
      obtain ⟨-, m2, m3⟩ := C05_rmul_encloses R 1 q oq
      have := C02_mul_encloses R (q.mulNum R 1) X m3 hX (1 / y * 1 * x)
        ⟨1 / y * 1, m2 _ ⟨1 / y, (hq' y hy).2, rfl⟩, x, hx, rfl⟩
      rwa [show ArOp.fn .div x y = 1 / y * 1 * x by simp only [ArOp.fn]; ring]

theorem npaIv_mem (R : Rnd K) (op : ArOp) {X : Iv K} {v : List K} {s : List (Option (Iv K))}
    (hX : Ordinary X) (h0 : op = .div → ¬ (0 : K) ∈ X) (h : npaIv R v X op = .ok s) :
    List.Forall₂ (fun c o => ∀ y ∈ X, ∃ Z, o = some Z ∧ op.fn c y ∈ Z) v s := by
  cases op with
  | add =>
    obtain ⟨-, rfl⟩ := npVec_ok h
    exact forall₂_map_self fun c _ y hy => ⟨_, rfl, elemNI_mem R .add hX rfl hy⟩
  | sub =>
    obtain ⟨-, rfl⟩ := npVec_ok h
    exact forall₂_map_self fun c _ y hy => ⟨_, rfl, (C05_radd_rsub_enclose R c X).2.2.1 _ ⟨y, hy, rfl⟩⟩
  | mul =>
    obtain ⟨-, rfl⟩ := npVec_ok h
    exact forall₂_map_self fun c _ y hy => ⟨_, rfl, elemNI_mem R .mul hX rfl hy⟩
  | div =>
    simp only [npaIv] at h
    split at h
    · cases h
    · rename_i q hq
      obtain ⟨-, rfl⟩ := npVec_ok h
      obtain ⟨oq, hq'⟩ := recip_mem R hX (h0 rfl) hq
      refine forall₂_map_self fun c _ y hy => ⟨_, rfl, ?_⟩
      have := (C05_rmul_encloses R c q oq).1 (c * (1 / y)) ⟨1 / y, hq' y hy, rfl⟩
      rwa [mul_one_div] at this

theorem ivNpa_mem (R : Rnd K) (op : ArOp) {X : Iv K} {v : List K} {s : List (Option (Iv K))}
    (hX : Ordinary X) (h0 : op = .div → (∀ c ∈ v, R.nr (1 / c) = 1 / c) ∧ (0 : K) ∉ v)
    (h : ivNpa R X v op = .ok s) :
    List.Forall₂ (fun c o => ∀ x ∈ X, ∃ Z, o = some Z ∧ op.fn x c ∈ Z) v s := by
  cases op with
  | add =>
    obtain ⟨-, rfl⟩ := npVec_ok h
    exact forall₂_map_self fun c _ x hx => ⟨_, rfl, elemIN_mem R .add hX (by simp) rfl hx⟩
  | sub =>
    obtain ⟨-, rfl⟩ := npVec_ok h
    exact forall₂_map_self fun c _ x hx => ⟨_, rfl, elemIN_mem R .sub hX (by simp) rfl hx⟩
  | mul =>
    obtain ⟨-, rfl⟩ := npVec_ok h
    exact forall₂_map_self fun c _ x hx => ⟨_, rfl, elemIN_mem R .mul hX (by simp) rfl hx⟩
  | div =>
    obtain ⟨-, rfl⟩ := npVec_ok h
    obtain ⟨n1, n2⟩ := h0 rfl
    refine forall₂_map_self fun c hc x hx => ?_
    have c0 : c ≠ 0 := fun e => n2 (e ▸ hc)
    rw [if_neg c0]
    exact ⟨_, rfl, elemIN_mem R .div hX (fun _ => n1 c hc) (by simp only [elemIN, Iv.divNum, if_neg c0]) hx⟩

theorem okmap {α β : Type*} {f : α → β} {e : Except Err α} {b : β} (h : e.map f = .ok b) :
    ∃ a, e = .ok a ∧ b = f a := by
  cases e with
  | error e => cases h
  | ok a => cases h; exact ⟨a, rfl, rfl⟩

theorem some_rel {α β : Type*} {P : α → β → Prop} {l : List α} {s : List β} (h : List.Forall₂ P l s) :
    List.Forall₂ (fun a o => ∃ Z, o = some Z ∧ P a Z) l (s.map some) := by
  rw [List.forall₂_map_right_iff]
  exact h.imp fun _ Z hZ => ⟨Z, rfl, hZ⟩

/-- Composing a selection of points with element-wise containment. -/
theorem select {α β : Type*} {Q : K → α → Prop} {P : α → β → Prop} {T : K → β → Prop} {f : K → K}
    {v : List K} {l : List α} {s : List β} (hv : List.Forall₂ Q v l) (hs : List.Forall₂ P l s)
    (h : ∀ x a b, Q x a → P a b → T (f x) b) : List.Forall₂ T (v.map f) s := by
  rw [List.forall₂_map_left_iff]
  induction hv generalizing s with
  | nil => cases hs; exact .nil
  | cons hp _ ih =>
    cases hs with
    | cons h1 h2 => exact .cons (h _ _ _ hp h1) (ih h2)

theorem bcast_sound {α β : Type*} (r1 : K → α → Prop) (r2 : K → β → Prop) (f : K → K → K)
    (g : α × β → Except Err (Iv K)) {u v : List K} {A : List α} {B : List β} (h1 : List.Forall₂ r1 u A)
    (h2 : List.Forall₂ r2 v B) (o1 : α → Prop) (o2 : β → Prop) (hA : ∀ a ∈ A, o1 a) (hB : ∀ b ∈ B, o2 b)
    (hg : ∀ a b Z, o1 a → o2 b → g (a, b) = .ok Z → ∀ x y, r1 x a → r2 y b → f x y ∈ Z) {res : OpRes K}
    (h : paired g A B = .ok res) :
    ∃ s, numOp f (.many u) (.many v) = some s ∧ ResContains res s := by
  unfold paired at h
  cases hb : npBroadcast2 A B with
  | error e => rw [hb] at h; cases h
  | ok l =>
    rw [hb] at h
    obtain ⟨s, hs, rfl⟩ := okmap h
    have h1' : List.Forall₂ (fun x a => r1 x a ∧ o1 a) u A :=
      List.forall₂_iff_get.2 ⟨h1.length_eq, fun i a b =>
        ⟨(List.forall₂_iff_get.1 h1).2 i a b, hA _ (List.get_mem _ _)⟩⟩
    have h2' : List.Forall₂ (fun y b => r2 y b ∧ o2 b) v B :=
      List.forall₂_iff_get.2 ⟨h2.length_eq, fun i a b =>
        ⟨(List.forall₂_iff_get.1 h2).2 i a b, hB _ (List.get_mem _ _)⟩⟩
    obtain ⟨w, hw, e⟩ := bcast_points _ _ f h1' h2' hb
    refine ⟨_, e, ?_⟩
    have := loop_mem g (fun t q => ∃ x y, t = f x y ∧ (r1 x q.1 ∧ o1 q.1) ∧ (r2 y q.2 ∧ o2 q.2)) (by
      rintro t ⟨a, b⟩ Z ⟨x, y, rfl, ha, hb⟩ hZ
      exact hg a b Z ha.2 hb.2 hZ x y ha.1 hb.1) hs (v := w.map fun p => f p.1 p.2) (by
      rw [List.forall₂_map_left_iff]
      exact hw.imp fun p q hpq => ⟨p.1, p.2, rfl, hpq.1, hpq.2⟩)
    exact this

/-! ## C91 -/

/-- The full property C91: an operation that succeeds gives a result containing all results of the operator on the
points, and a divisor with a zero raises. -/
def C91_statement (R : Rnd K) : Prop :=
  ∀ (op : ArOp) (l r : Opd K), OrdOpd l → OrdOpd r →
    (op = .div → HasZero r → ∀ res, binop R op l r ≠ some (.ok res)) ∧
    (∀ res, binop R op l r = some (.ok res) →
      ∀ p q, IsPoint l p → IsPoint r q → ∃ s, numOp op.fn p q = some s ∧ ResContains res s)

/-- C91 (partial): for every rounding, every operator and all twelve combinations of operands with an interval among
them: when the operation succeeds, the result has the shape numpy gives the operation on numbers and contains the
result for every choice of points, provided an interval divisor has no zero in it and the reciprocals of number
divisors are representable.  Missing: interval divisors of arrays with zero inside and other number divisors (see
`C91_mixed_false`). -/
theorem C91_mixed_partial (R : Rnd K) (op : ArOp) (l r : Opd K) (hl : OrdOpd l) (hr : OrdOpd r)
    (hdiv : op = .div → NumRecip R r ∧ (∀ X, r = .iv X → ¬ (0 : K) ∈ X) ∧ (∀ v, r = .npa v → (0 : K) ∉ v))
    (res : OpRes K) (h : binop R op l r = some (.ok res)) (p q : Val K) (hp : IsPoint l p) (hq : IsPoint r q) :
    ∃ s, numOp op.fn p q = some s ∧ ResContains res s := by
  have eqs : ∀ v : List K, List.Forall₂ (fun x c : K => x = c) v v := fun v => List.forall₂_same.2 fun _ _ => rfl
  cases l with
  | num c =>
    cases p with
    | many v => exact hp.elim
    | one x =>
    replace hp : x = c := hp
    subst hp
    cases r with
    | num d => cases h
    | npa v => cases h
    | iv X =>
      cases q with
      | many v => exact hq.elim
      | one y =>
      obtain ⟨Z, hZ, rfl⟩ := okmap (Option.some.inj h)
      exact ⟨_, rfl, elemNI_mem R op hr hZ hq⟩
    | arr A =>
      cases q with
      | one y => exact hq.elim
      | many v =>
      obtain ⟨s, hs, rfl⟩ := okmap (Option.some.inj h)
      refine ⟨_, rfl, ?_⟩
      refine select hq (some_rel (numArr_mem R op hr hs)) ?_
      rintro y Y o hy ⟨Z, rfl, hZ⟩
      exact ⟨Z, rfl, hZ y hy⟩
  | iv X =>
    cases p with
    | many v => exact hp.elim
    | one x =>
    replace hp : x ∈ X := hp
    cases r with
    | num c =>
      cases q with
      | many v => exact hq.elim
      | one y =>
      replace hq : y = c := hq
      subst hq
      obtain ⟨Z, hZ, rfl⟩ := okmap (Option.some.inj h)
      exact ⟨_, rfl, elemIN_mem R op hl (fun e => (hdiv e).1) hZ hp⟩
    | iv Y =>
      cases q with
      | many v => exact hq.elim
      | one y =>
      obtain ⟨Z, hZ, rfl⟩ := okmap (Option.some.inj h)
      exact ⟨_, rfl, elemII_mem R op hl hr hZ hp hq⟩
    | arr A =>
      cases q with
      | one y => exact hq.elim
      | many v =>
      obtain ⟨s, hs, rfl⟩ := okmap (Option.some.inj h)
      refine ⟨_, rfl, ?_⟩
      refine select hq (some_rel (ivArr_mem R op hr hl hs)) ?_
      rintro y Y o hy ⟨Z, rfl, hZ⟩
      exact ⟨Z, rfl, hZ x hp y hy⟩
    | npa w =>
      cases q with
      | one y => exact hq.elim
      | many v =>
      replace hq : v = w := hq
      subst hq
      obtain ⟨s, hs, rfl⟩ := okmap (Option.some.inj h)
      refine ⟨_, rfl, ?_⟩
      refine select (eqs v) (ivNpa_mem R op hl (fun e => ⟨(hdiv e).1, (hdiv e).2.2 _ rfl⟩) hs) ?_
      rintro y c o rfl ho
      exact ho x hp
  | arr A =>
    cases p with
    | one x => exact hp.elim
    | many u =>
    cases r with
    | num c =>
      cases q with
      | many v => exact hq.elim
      | one y =>
      replace hq : y = c := hq
      subst hq
      obtain ⟨s, hs, rfl⟩ := okmap (Option.some.inj h)
      refine ⟨.many (u.map fun a => op.fn a y), by cases u <;> rfl, ?_⟩
      refine select hp (some_rel (forall₂_of_loop hs (P := fun o Z => ∀ x ∈ o, op.fn x y ∈ Z)
        fun o ho Z hZ x hx => elemIN_mem R op (hl o ho) (fun e => (hdiv e).1) hZ hx)) ?_
      rintro x X o hx ⟨Z, rfl, hZ⟩
      exact ⟨Z, rfl, hZ x hx⟩
    | iv X =>
      cases q with
      | many v => exact hq.elim
      | one y =>
      obtain ⟨s, hs, rfl⟩ := okmap (Option.some.inj h)
      refine ⟨.many (u.map fun a => op.fn a y), by cases u <;> rfl, ?_⟩
      refine select hp (some_rel (arrIv_mem R op hl hr (fun e => (hdiv e).2.1 X rfl) hs)) ?_
      rintro x o Z' hx ⟨Z, rfl, hZ⟩
      exact ⟨Z, rfl, hZ x hx y hq⟩
    | arr B =>
      cases q with
      | one y => exact hq.elim
      | many v =>
      exact bcast_sound _ _ op.fn (fun p => elemII R op p.1 p.2) hp hq Ordinary Ordinary hl hr
        (fun a b Z oa ob hZ x y hx hy => elemII_mem R op oa ob hZ hx hy) (Option.some.inj h)
    | npa w =>
      cases q with
      | one y => exact hq.elim
      | many v =>
      replace hq : v = w := hq
      subst hq
      refine bcast_sound _ _ op.fn (fun p => elemIN R op p.1 p.2) hp (eqs v) Ordinary
        (fun c => op = .div → R.nr (1 / c) = 1 / c) hl (fun c hc e => (hdiv e).1 c hc) ?_ (Option.some.inj h)
      rintro a c Z oa oc hZ x y hx rfl
      exact elemIN_mem R op oa oc hZ hx
  | npa u =>
    cases p with
    | one x => exact hp.elim
    | many u' =>
    replace hp : u' = u := hp
    subst hp
    cases r with
    | num c => cases h
    | npa v => cases h
    | iv X =>
      cases q with
      | many v => exact hq.elim
      | one y =>
      obtain ⟨s, hs, rfl⟩ := okmap (Option.some.inj h)
      refine ⟨.many (u'.map fun a => op.fn a y), by cases u' <;> rfl, ?_⟩
      refine select (eqs u') (npaIv_mem R op hr (fun e => (hdiv e).2.1 X rfl) hs) ?_
      rintro x c o rfl ho
      exact ho y hq
    | arr B =>
      cases q with
      | one y => exact hq.elim
      | many v =>
      refine bcast_sound _ _ op.fn (fun p => elemNI R op p.1 p.2) (eqs u') hq (fun _ => True) Ordinary
        (fun _ _ => trivial) hr ?_ (Option.some.inj h)
      rintro a Y Z _ oY hZ x y rfl hy
      exact elemNI_mem R op oY hZ hy

/-- C91 is false: an array divided by an interval with zero inside gives bounded quotients, and an interval
divided by an array of numbers with a zero gives no exception. -/
theorem C91_mixed_false : ¬ C91_statement (Rnd.exact : Rnd ℚ) ∧
    binop Rnd.exact .div (.arr [⟨.classical, 1, 1⟩]) (.iv (⟨.classical, -1, 2⟩ : Iv ℚ))
      = some (.ok (.array [some ⟨.classical, -1, 1/2⟩])) ∧
    binop Rnd.exact .div (.iv (⟨.classical, 1, 2⟩ : Iv ℚ)) (.npa [0, 2])
      = some (.ok (.objects [none, some ⟨.classical, 1/2, 1⟩])) := by
  have h1 : binop Rnd.exact .div (.arr [⟨.classical, 1, 1⟩]) (.iv (⟨.classical, -1, 2⟩ : Iv ℚ))
      = some (.ok (.array [some ⟨.classical, -1, 1/2⟩])) := by
    norm_num [binop, arrIv, Iv.recip, npVec, Iv.mul, Iv.mulCC, Except.map]
  have h2 : binop Rnd.exact .div (.iv (⟨.classical, 1, 2⟩ : Iv ℚ)) (.npa [0, 2])
      = some (.ok (.objects [none, some ⟨.classical, 1/2, 1⟩])) := by
    norm_num [binop, ivNpa, npVec, Iv.rmul, Except.map]
  refine ⟨fun h => ?_, h1, h2⟩
  refine (h .div (.arr [⟨.classical, 1, 1⟩]) (.iv ⟨.classical, -1, 2⟩) ?_ ⟨rfl, by norm_num⟩).1 rfl ?_ _ h1
  · intro X hX
    simp only [List.mem_singleton] at hX
    subst hX
    exact ⟨rfl, le_refl _⟩
  · norm_num [HasZero, Iv.mem_def]

/-- The shapes fit: a scalar with anything, or two arrays of equal length, or one of them of length one. -/
def ShapesFit : Opd K → Opd K → Prop
  | .arr A, .arr B => A.length = B.length ∨ A.length = 1 ∨ B.length = 1
  | .arr A, .npa v => A.length = v.length ∨ A.length = 1 ∨ v.length = 1
  | .npa v, .arr A => v.length = A.length ∨ v.length = 1 ∨ A.length = 1
  | _, _ => True

/-- An interval meets an array without elements. -/
def EmptyMeetsIv : Opd K → Opd K → Prop
  | .iv _, .arr A => A = []
  | .iv _, .npa v => v = []
  | .arr A, .iv _ => A = []
  | .npa v, .iv _ => v = []
  | _, _ => False

theorem npBroadcast2_fits {α β : Type*} (xs : List α) (ys : List β) :
    (∃ l, npBroadcast2 xs ys = .ok l) ↔ xs.length = ys.length ∨ xs.length = 1 ∨ ys.length = 1 := by
  constructor
  · rintro ⟨l, h⟩
    rcases npBroadcast2_spec _ _ _ h with ⟨h, -⟩ | ⟨x, rfl, -⟩ | ⟨y, rfl, -⟩
    · exact .inl h
    · exact .inr (.inl rfl)
    · exact .inr (.inr rfl)
  · intro h
    unfold npBroadcast2
    split_ifs with h1
    · exact ⟨_, rfl⟩
    · split
      · exact ⟨_, rfl⟩
      · exact ⟨_, rfl⟩
      · rename_i n1 n2
        rcases h with h | h | h
        · exact absurd h h1
        · obtain ⟨x, rfl⟩ := List.length_eq_one_iff.1 h
          exact (n1 x rfl).elim
        · obtain ⟨y, rfl⟩ := List.length_eq_one_iff.1 h
          exact (n2 y rfl).elim

theorem npBroadcast2_error {α β : Type*} (xs : List α) (ys : List β) (e : Err)
    (h : npBroadcast2 xs ys = .error e) : e = .valueError := by
  unfold npBroadcast2 at h
  split_ifs at h with h1
  split at h <;> cases h
  rfl

theorem objLoop_total {α β : Type*} (f : α → Except Err β) (g : α → β) (h : ∀ a, f a = .ok (g a)) (l : List α) :
    objLoop f l = .ok (l.map g) := by
  induction l with
  | nil => rfl
  | cons x t ih => simp only [objLoop, h, ih, List.map_cons]

theorem paired_total {α β : Type*} (g : α × β → Except Err (Iv K)) (g' : α × β → Iv K) (h : ∀ a, g a = .ok (g' a))
    (A : List α) (B : List β) :
    (paired g A B = .error .valueError ∧ ¬ (A.length = B.length ∨ A.length = 1 ∨ B.length = 1)) ∨
    (∃ res, paired g A B = .ok res) ∧ (A.length = B.length ∨ A.length = 1 ∨ B.length = 1) := by
  unfold paired
  cases hb : npBroadcast2 A B with
  | error e =>
    refine .inl ⟨by rw [npBroadcast2_error _ _ _ hb], fun hf => ?_⟩
    obtain ⟨l, hl⟩ := (npBroadcast2_fits A B).2 hf
    rw [hb] at hl; cases hl
  | ok l =>
    exact .inr ⟨⟨.array ((l.map g').map some), by simp only [objLoop_total g g' h]; rfl⟩, (npBroadcast2_fits A B).1 ⟨l, hb⟩⟩

/-- C91: sums, differences and products raise `ValueError` exactly when the shapes do not fit or an interval meets
an array without elements; nothing else goes wrong. -/
theorem C91_raises (R : Rnd K) (op : ArOp) (hop : op ≠ .div) (l r : Opd K) (x : Except Err (OpRes K))
    (h : binop R op l r = some x) :
    (x = .error .valueError ∧ (¬ ShapesFit l r ∨ EmptyMeetsIv l r)) ∨
    ((∃ res, x = .ok res) ∧ ShapesFit l r ∧ ¬ EmptyMeetsIv l r) := by
  have vec : ∀ {α β γ : Type _} (f : α → β) (g : List β → γ) (t : List α),
      ((npVec f t).map g = .error .valueError ∧ t = []) ∨ ((∃ res, (npVec f t).map g = .ok res) ∧ t ≠ []) := by
    intro α β γ f g t
    cases t with
    | nil => exact .inl ⟨rfl, rfl⟩
    | cons a t => exact .inr ⟨⟨_, rfl⟩, by simp⟩
  have vec' : ∀ {α β γ : Type _} (f : α → β) (g : List β → γ) (t : List α) (P : Prop) (y : Except Err γ),
      (npVec f t).map g = y → (t = [] ↔ P) → (y = .error .valueError ∧ (¬ True ∨ P)) ∨
      ((∃ res, y = .ok res) ∧ True ∧ ¬ P) := by
    intro α β γ f g t P y hy hP
    subst hy
    rcases vec f g t with ⟨h1, h2⟩ | ⟨h1, h2⟩
    · exact .inl ⟨h1, .inr (hP.1 h2)⟩
    · exact .inr ⟨h1, trivial, fun h => h2 (hP.2 h)⟩
  have pr : ∀ {α β : Type _} (g : α × β → Except Err (Iv K)) (g' : α × β → Iv K) (A : List α) (B : List β)
      (y : Except Err (OpRes K)), (∀ a, g a = .ok (g' a)) → paired g A B = y →
      (y = .error .valueError ∧ (¬ (A.length = B.length ∨ A.length = 1 ∨ B.length = 1) ∨ False)) ∨
      ((∃ res, y = .ok res) ∧ (A.length = B.length ∨ A.length = 1 ∨ B.length = 1) ∧ ¬ False) := by
    intro α β g g' A B y hg hy
    subst hy
    rcases paired_total g g' hg A B with ⟨h1, h2⟩ | ⟨h1, h2⟩
    · exact .inl ⟨h1, .inl h2⟩
    · exact .inr ⟨h1, h2, id⟩
  have tot : ∀ y : OpRes K, Except.ok y = x →
      (x = .error .valueError ∧ (¬ True ∨ False)) ∨ ((∃ res, x = .ok res) ∧ True ∧ ¬ False) :=
    fun y hy => .inr ⟨⟨y, hy.symm⟩, trivial, id⟩
  have loop : ∀ {α : Type _} (f : α → Except Err (Iv K)) (g : α → Iv K) (t : List α), (∀ a, f a = .ok (g a)) →
      (objLoop f t).map (fun s => OpRes.array (s.map some)) = x →
      (x = .error .valueError ∧ (¬ True ∨ False)) ∨ ((∃ res, x = .ok res) ∧ True ∧ ¬ False) := by
    intro α f g t hf hx
    rw [objLoop_total f g hf] at hx
    exact tot _ hx
  cases l <;> cases r <;> (try cases h) <;> (try replace h := Option.some.inj h) <;> cases op <;>
    first
      | exact absurd rfl hop
      | exact tot _ rfl
      | exact vec' _ _ _ _ _ rfl Iff.rfl
      | exact vec' _ _ _ _ _ rfl List.map_eq_nil_iff
      | exact pr _ _ _ _ _ (fun _ => rfl) rfl
      | exact loop _ _ _ (fun _ => rfl) rfl

theorem objLoop_dich {α β : Type*} (f : α → Except Err β) (P : α → Prop) (e : Err) (l : List α)
    (h1 : ∀ a ∈ l, P a → f a = .error e) (h2 : ∀ a ∈ l, ¬ P a → ∃ z, f a = .ok z) :
    ((∃ a ∈ l, P a) → objLoop f l = .error e) ∧ ((∀ a ∈ l, ¬ P a) → ∃ s, objLoop f l = .ok s) := by
  induction l with
  | nil => exact ⟨by simp, fun _ => ⟨[], rfl⟩⟩
  | cons x t ih =>
    obtain ⟨i1, i2⟩ := ih (fun a ha => h1 a (by simp [ha])) (fun a ha => h2 a (by simp [ha]))
    constructor
    · rintro ⟨a, ha, hp⟩
      by_cases hx : P x
      · simp only [objLoop, h1 x (by simp) hx]
      · obtain ⟨z, hz⟩ := h2 x (by simp) hx
        rcases List.mem_cons.1 ha with rfl | ha
        · exact absurd hp hx
        · simp only [objLoop, hz, i1 ⟨a, ha, hp⟩]
    · intro hn
      obtain ⟨z, hz⟩ := h2 x (by simp) (hn x (by simp))
      obtain ⟨s, hs⟩ := i2 fun a ha => hn a (by simp [ha])
      exact ⟨z :: s, by simp only [objLoop, hz, hs]⟩

/-- Broadcasting two nonempty arrays uses every element of the right one, and only elements of both. -/
theorem npBroadcast2_uses {α β : Type*} {A : List α} {B : List β} {l : List (α × β)} (hA : A ≠ [])
    (h : npBroadcast2 A B = .ok l) : (∀ b ∈ B, ∃ a, (a, b) ∈ l) ∧ ∀ p ∈ l, p.1 ∈ A ∧ p.2 ∈ B := by
  rcases npBroadcast2_spec _ _ _ h with ⟨he, rfl⟩ | ⟨a, rfl, rfl⟩ | ⟨b, rfl, rfl⟩
  · refine ⟨fun b hb => ?_, fun p hp => ⟨(List.of_mem_zip hp).1, (List.of_mem_zip hp).2⟩⟩
    obtain ⟨i, hi, rfl⟩ := List.getElem_of_mem hb
    refine ⟨A[i]'(by omega), ?_⟩
    have : (A.zip B)[i]'(by simp; omega) = (A[i]'(by omega), B[i]) := by simp
    rw [← this]
    exact List.getElem_mem _
  · exact ⟨fun b hb => ⟨a, List.mem_map.2 ⟨b, hb, rfl⟩⟩, fun p hp => by
      obtain ⟨b, hb, rfl⟩ := List.mem_map.1 hp; exact ⟨by simp, hb⟩⟩
  · refine ⟨fun b' hb => ?_, fun p hp => by
      obtain ⟨a, ha, rfl⟩ := List.mem_map.1 hp; exact ⟨ha, by simp⟩⟩
    rw [List.mem_singleton] at hb
    subst hb
    obtain ⟨a, t, rfl⟩ := List.exists_cons_of_ne_nil hA
    exact ⟨a, by simp⟩

theorem paired_dich {α β : Type*} (g : α × β → Except Err (Iv K)) (P : β → Prop) (e : Err) {A : List α}
    {B : List β} (hA : A ≠ []) (hf : A.length = B.length ∨ A.length = 1 ∨ B.length = 1)
    (h1 : ∀ a ∈ A, ∀ b ∈ B, P b → g (a, b) = .error e) (h2 : ∀ a ∈ A, ∀ b ∈ B, ¬ P b → ∃ z, g (a, b) = .ok z) :
    ((∃ b ∈ B, P b) → paired g A B = .error e) ∧ ((∀ b ∈ B, ¬ P b) → ∃ s, paired g A B = .ok s) := by
  obtain ⟨l, hl⟩ := (npBroadcast2_fits A B).2 hf
  obtain ⟨u1, u2⟩ := npBroadcast2_uses hA hl
  obtain ⟨d1, d2⟩ := objLoop_dich g (fun p => P p.2) e l
    (fun p hp hP => h1 p.1 (u2 p hp).1 p.2 (u2 p hp).2 hP) (fun p hp hP => h2 p.1 (u2 p hp).1 p.2 (u2 p hp).2 hP)
  constructor
  · rintro ⟨b, hb, hP⟩
    obtain ⟨a, ha⟩ := u1 b hb
    simp only [paired, hl, d1 ⟨_, ha, hP⟩]
    rfl
  · intro hn
    obtain ⟨s, hs⟩ := d2 fun p hp => hn _ (u2 p hp).2
    exact ⟨_, by simp only [paired, hl, hs]; rfl⟩

/-- The operand has at least one element. -/
def NonEmptyOpd : Opd K → Prop
  | .arr A => A ≠ []
  | .npa v => v ≠ []
  | _ => True

/-- C91: dividing anything by an interval array raises `ValueError` when some element of the divisor contains zero,
and succeeds otherwise. -/
theorem C91_division_by_array (R : Rnd K) (l : Opd K) (B : List (Iv K)) (hl : OrdOpd l) (hB : ∀ X ∈ B, Ordinary X)
    (hf : ShapesFit l (.arr B)) (h1 : NonEmptyOpd l) (h2 : B ≠ []) :
    (HasZero (.arr B) → binop R .div l (.arr B) = some (.error .valueError)) ∧
    (¬ HasZero (.arr B) → ∃ res, binop R .div l (.arr B) = some (.ok res)) := by
  have hz : HasZero (.arr B) ↔ ∃ X ∈ B, (0 : K) ∈ X := Iff.rfl
  have hn : ¬ HasZero (.arr B) ↔ ∀ X ∈ B, ¬ (0 : K) ∈ X := by rw [hz]; push Not; rfl
  have one : ((∃ X ∈ B, (0 : K) ∈ X) → objLoop (Iv.rdiv R 1) B = .error .valueError) ∧
      ((∀ X ∈ B, ¬ (0 : K) ∈ X) → ∃ s, objLoop (Iv.rdiv R 1) B = .ok s) :=
    objLoop_dich _ _ _ _ (fun X hX => ((C05_rdiv_error_iff R 1 X (hB X hX)).1).2)
      (fun X hX => ((C05_rdiv_error_iff R 1 X (hB X hX)).2).2)
  rw [hn, hz]
  cases l with
  | num c =>
    refine ⟨fun h => by simp only [binop, numArr, one.1 h]; rfl, fun h => ?_⟩
    obtain ⟨s, hs⟩ := one.2 h
    exact ⟨_, by simp only [binop, numArr, hs]; rfl⟩
  | iv X =>
    refine ⟨fun h => by simp only [binop, ivArr, one.1 h]; rfl, fun h => ?_⟩
    obtain ⟨s, hs⟩ := one.2 h
    have hs0 : s ≠ [] := by
      have := ((objLoop_ok _ _ _).1 hs).length_eq
      intro e; rw [e] at this; exact h2 (List.length_eq_zero_iff.1 this)
    obtain ⟨a, t, rfl⟩ := List.exists_cons_of_ne_nil hs0
    exact ⟨_, by simp only [binop, ivArr, hs, npVec, List.map_cons, List.isEmpty_cons, Bool.false_eq_true, if_false]; rfl⟩
  | arr A =>
    obtain ⟨d1, d2⟩ := paired_dich (fun p => elemII R .div p.1 p.2) (fun X => (0 : K) ∈ X) .valueError h1 hf
      (fun a ha b hb => ((C03_div_error_iff R a b (hl a ha) (hB b hb)).1).2)
      (fun a ha b hb h => let ⟨Z, hZ, _⟩ := ((C03_div_error_iff R a b (hl a ha) (hB b hb)).2).2 h; ⟨Z, hZ⟩)
    refine ⟨fun h => congrArg some (d1 h), fun h => ?_⟩
    obtain ⟨s, hs⟩ := d2 h
    exact ⟨s, congrArg some hs⟩
  | npa v =>
    obtain ⟨d1, d2⟩ := paired_dich (fun p => elemNI R .div p.1 p.2) (fun X => (0 : K) ∈ X) .valueError h1 hf
      (fun a _ b hb => ((C05_rdiv_error_iff R a b (hB b hb)).1).2)
      (fun a _ b hb => ((C05_rdiv_error_iff R a b (hB b hb)).2).2)
    refine ⟨fun h => congrArg some (d1 h), fun h => ?_⟩
    obtain ⟨s, hs⟩ := d2 h
    exact ⟨s, congrArg some hs⟩

/-- C91: dividing an interval array by numbers raises `ZeroDivisionError` exactly when one of them is zero;
dividing an array (of intervals or of numbers) by an interval raises `ZeroDivisionError` exactly when an endpoint is
zero, whatever lies inside. -/
theorem C91_division_by_scalar (R : Rnd K) (A : List (Iv K)) (hA : A ≠ []) :
    (∀ c : K, (c = 0 → binop R .div (.arr A) (.num c) = some (.error .zeroDivisionError)) ∧
      (c ≠ 0 → ∃ res, binop R .div (.arr A) (.num c) = some (.ok res))) ∧
    (∀ v : List K, A.length = v.length → ((0 : K) ∈ v → binop R .div (.arr A) (.npa v) = some (.error .zeroDivisionError)) ∧
      ((0 : K) ∉ v → ∃ res, binop R .div (.arr A) (.npa v) = some (.ok res))) ∧
    (∀ X : Iv K, (X.a = 0 ∨ X.b = 0 → binop R .div (.arr A) (.iv X) = some (.error .zeroDivisionError)) ∧
      (¬ (X.a = 0 ∨ X.b = 0) → ∃ res, binop R .div (.arr A) (.iv X) = some (.ok res))) ∧
    (∀ (v : List K) (X : Iv K), v ≠ [] →
      (X.a = 0 ∨ X.b = 0 → binop R .div (.npa v) (.iv X) = some (.error .zeroDivisionError)) ∧
      (¬ (X.a = 0 ∨ X.b = 0) → ∃ res, binop R .div (.npa v) (.iv X) = some (.ok res))) := by
  have rec0 : ∀ X : Iv K, (X.a = 0 ∨ X.b = 0 → Iv.recip R X.cls X = .error .zeroDivisionError) ∧
      (¬ (X.a = 0 ∨ X.b = 0) → ∃ q, Iv.recip R X.cls X = .ok q) := by
    intro X
    unfold Iv.recip
    refine ⟨fun h => ?_, fun h => ?_⟩
    · by_cases hb : X.b = 0
      · rw [if_pos hb]
      · rw [if_neg hb, if_pos (h.resolve_right hb)]
    · push Not at h
      exact ⟨_, by rw [if_neg h.2, if_neg h.1]⟩
  have elem : ∀ (o : Iv K) (c : K), (c = 0 → elemIN R .div o c = .error .zeroDivisionError) ∧
      (c ≠ 0 → ∃ z, elemIN R .div o c = .ok z) := fun o c =>
    ⟨fun h => by simp only [elemIN, Iv.divNum, if_pos h], fun h => ⟨Iv.rmul R (R.nr (1 / c)) o, by simp only [elemIN, Iv.divNum, if_neg h]⟩⟩
  have vec : ∀ {α β : Type _} (f : α → β) (t : List α), t ≠ [] → ∃ s, npVec f t = .ok s := by
    intro α β f t ht
    obtain ⟨a, t, rfl⟩ := List.exists_cons_of_ne_nil ht
    exact ⟨_, rfl⟩
  refine ⟨fun c => ?_, fun v hv => ?_, fun X => ?_, fun v X hv => ?_⟩
  · obtain ⟨d1, d2⟩ := objLoop_dich (fun o => elemIN R .div o c) (fun _ => c = 0) .zeroDivisionError A
      (fun o _ => (elem o c).1) (fun o _ => (elem o c).2)
    refine ⟨fun h => ?_, fun h => ?_⟩
    · obtain ⟨a, t, rfl⟩ := List.exists_cons_of_ne_nil hA
      simp only [binop, d1 ⟨a, by simp, h⟩]; rfl
    · obtain ⟨s, hs⟩ := d2 fun _ _ => h
      exact ⟨_, by simp only [binop, hs]; rfl⟩
  · obtain ⟨d1, d2⟩ := paired_dich (fun p => elemIN R .div p.1 p.2) (fun c => c = 0) .zeroDivisionError hA (.inl hv)
      (fun a _ c _ => (elem a c).1) (fun a _ c _ => (elem a c).2)
    refine ⟨fun h => congrArg some (d1 ⟨0, h, rfl⟩), fun h => ?_⟩
    obtain ⟨s, hs⟩ := d2 fun c hc e => h (e ▸ hc)
    exact ⟨s, congrArg some hs⟩
  · refine ⟨fun h => by simp only [binop, arrIv, (rec0 X).1 h]; rfl, fun h => ?_⟩
    obtain ⟨q, hq⟩ := (rec0 X).2 h
    obtain ⟨s, hs⟩ := vec (fun o : Iv K => o.mul R q) A hA
    exact ⟨_, by simp only [binop, arrIv, hq, hs]; rfl⟩
  · refine ⟨fun h => by simp only [binop, npaIv, (rec0 X).1 h]; rfl, fun h => ?_⟩
    obtain ⟨q, hq⟩ := (rec0 X).2 h
    obtain ⟨s, hs⟩ := vec (fun c : K => some (Iv.rmul R c q)) v hv
    exact ⟨_, by simp only [binop, npaIv, hq, hs]; rfl⟩

/-- C91 on a concrete operation: `[1,2] - [[0,1],[2,3]]`, and a selection of points. -/
example : binop Rnd.exact .sub (.iv (⟨.classical, 1, 2⟩ : Iv ℚ)) (.arr [⟨.classical, 0, 1⟩, ⟨.classical, 2, 3⟩])
      = some (.ok (.array [some ⟨.classical, 0, 2⟩, some ⟨.classical, -2, 0⟩])) ∧
    ∃ s, numOp (ArOp.fn .sub) (.one (3/2 : ℚ)) (.many [0, 3]) = some s ∧
      ResContains (.array [some ⟨.classical, 0, 2⟩, some ⟨.classical, -2, 0⟩]) s := by
  have h : binop Rnd.exact .sub (.iv (⟨.classical, 1, 2⟩ : Iv ℚ)) (.arr [⟨.classical, 0, 1⟩, ⟨.classical, 2, 3⟩])
      = some (.ok (.array [some ⟨.classical, 0, 2⟩, some ⟨.classical, -2, 0⟩])) := by
    norm_num [binop, ivArr, npVec, Iv.add, Iv.neg, Except.map]
  refine ⟨h, C91_mixed_partial Rnd.exact .sub _ _ ?_ ?_ (by simp) _ h _ _ ?_ ?_⟩
  · exact ⟨rfl, by norm_num⟩
  · intro X hX
    simp only [List.mem_cons, List.not_mem_nil, or_false] at hX
    rcases hX with rfl | rfl <;> exact ⟨rfl, by norm_num⟩
  · norm_num [IsPoint, Iv.mem_def]
  · norm_num [IsPoint, Iv.mem_def]

/-! ## C92: what comes back -/

/-- The operand is an array. -/
def Opd.isArray : Opd K → Prop
  | .arr _ => True
  | .npa _ => True
  | _ => False

/-- The full property C92: whenever an operation with an interval takes an array, an interval array comes back. -/
def C92_statement (R : Rnd K) : Prop :=
  ∀ (op : ArOp) (l r : Opd K) (res : OpRes K), binop R op l r = some (.ok res) → l.isArray ∨ r.isArray →
    ∃ t, res = .array t

/-- C92 is false: an interval plus a numpy array is a numpy array. -/
theorem C92_kind_false : ¬ C92_statement (Rnd.exact : Rnd ℚ) ∧
    binop Rnd.exact .add (.iv (⟨.classical, 1, 2⟩ : Iv ℚ)) (.npa [3])
      = some (.ok (.objects [some ⟨.classical, 4, 5⟩])) := by
  have h : binop Rnd.exact .add (.iv (⟨.classical, 1, 2⟩ : Iv ℚ)) (.npa [3])
      = some (.ok (.objects [some ⟨.classical, 4, 5⟩])) := by
    norm_num [binop, ivNpa, npVec, Iv.radd, Except.map]
  refine ⟨fun hs => ?_, h⟩
  obtain ⟨t, ht⟩ := hs _ _ _ _ h (.inr trivial)
  cases ht

/-- C92 (partial): an interval array comes back exactly when one of the operands is an interval array, an interval
exactly when neither operand is an array, and a plain numpy array exactly for an interval with a numpy array.
Missing: the last case, where the property fails. -/
theorem C92_kind_partial (R : Rnd K) (op : ArOp) (l r : Opd K) (res : OpRes K)
    (h : binop R op l r = some (.ok res)) :
    ((∃ t, res = .array t) ↔ (∃ A, l = .arr A) ∨ (∃ A, r = .arr A)) ∧
    ((∃ X, res = .interval X) ↔ ¬ l.isArray ∧ ¬ r.isArray) ∧
    ((∃ t, res = .objects t) ↔ (∃ X v, l = .iv X ∧ r = .npa v) ∨ (∃ X v, l = .npa v ∧ r = .iv X)) := by
  have pr : ∀ {α β : Type _} {g : α × β → Except Err (Iv K)} {A : List α} {B : List β}, paired g A B = .ok res →
      ∃ t, res = .array t := by
    intro α β g A B h
    unfold paired at h
    split at h
    · cases h
    · obtain ⟨s, -, rfl⟩ := okmap h
      exact ⟨_, rfl⟩
  cases l <;> cases r <;> (try cases h) <;> (try replace h := Option.some.inj h) <;>
    first
      | (obtain ⟨s, -, rfl⟩ := okmap h; simp [Opd.isArray])
      | (obtain ⟨s, rfl⟩ := pr h; simp [Opd.isArray])

/-- C92: `A ** n` raises `ValueError` exactly for an array without elements, and otherwise is an array of the same
length whose elements contain the powers of the points. -/
theorem C92_array_power (R : Rnd K) (A : List (Iv K)) (n : ℕ) (hA : ∀ X ∈ A, Ordinary X) :
    (arrPow R A n = .error .valueError ↔ A = []) ∧
    (A ≠ [] → ∃ s, arrPow R A n = .ok s ∧ ∀ v, List.Forall₂ (fun (x : K) (X : Iv K) => x ∈ X) v A →
      List.Forall₂ (fun (x : K) (Z : Iv K) => x ∈ Z) (v.map (· ^ n)) s) := by
  cases A with
  | nil => simp [arrPow, npVec]
  | cons X t =>
    refine ⟨by simp [arrPow, npVec], fun _ => ⟨_, rfl, fun v hv => ?_⟩⟩
    refine select hv (forall₂_map_self (P := fun X Z => ∀ x ∈ X, x ^ n ∈ Z) fun Y hY x hx =>
      (C06_pow_encloses R Y n (hA Y hY)).1 _ ⟨x, hx, rfl⟩) fun x Y Z hx hZ => hZ x hx

end IntvalPy
