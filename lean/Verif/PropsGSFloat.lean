import Verif.ModelGSFloat
import Verif.PropsKrawStep
import Verif.PropsGauss

/-!
# Gauss_Seidel with unbounded start boxes (C162)
-/

set_option autoImplicit false
set_option linter.unusedSectionVars false

namespace IntvalPy
open FIv M

/-! ## Specification -/

/-- `x` solves a point system inside the interval system. -/
def UnitedF {n : ℕ} (A : Fin n → Fin n → FIv) (b : Fin n → FIv) (x : Fin n → ℝ) : Prop :=
  ∃ A' : Fin n → Fin n → ℝ, (∀ i j, (A i j).Mem (A' i j)) ∧ ∃ b' : Fin n → ℝ, (∀ i, (b i).Mem (b' i)) ∧
    ∀ i, ∑ j, A' i j * x j = b' i

/-- A classical interval whose integer ends, if any, are at most `2^26`. -/
def Tame (X : FIv) : Prop := X.cls = .classical ∧ X.a.IntsLe (2 ^ 26) ∧ X.b.IntsLe (2 ^ 26)

/-- C162 as stated in properties.jsonl: the returned box contains every solution of the start box, and the exception "does not
intersect" is raised only when there is none. -/
def C162_statement : Prop := ∀ (n : ℕ) (A : Fin n → Fin n → FIv) (b x0 : Fin n → FIv) (tol : Num) (maxiter : ℤ) (s : Mode),
  (∀ i j, Tame (A i j)) → (∀ i, Tame (b i) ∧ Dbls (b i)) → (∀ i, Tame (x0 i)) → 0 ≤ maxiter →
  ∀ x, UnitedF A b x → (∀ i, (x0 i).Mem (x i)) →
    (gsRunN A b x0 tol maxiter s).1 ≠ .error .exception ∧
    ∀ Y, (gsRunN A b x0 tol maxiter s).1 = .ok Y → ∀ i, (Y i).Mem (x i)

/-! ## Values that are enclosed or NaN -/

/-- A computed interval with float ends that contains `x`, or, unless `p`, `[nan, nan]`. -/
def GoodF (p : Prop) (X : FIv) (x : ℝ) : Prop :=
  X.cls = .classical ∧ Dbls X ∧ (X.Mem x ∨ (¬ p ∧ X.a = .dbl .nan ∧ X.b = .dbl .nan))

theorem lt_nan (d : Dbl) : Dbl.lt d .nan = false := by cases d <;> rfl

/-- The lower end is not `-inf`. -/
def LowFin (X : FIv) : Prop := X.a.val ≠ .ninf

/-- `X` may be multiplied by column `j` of `A` outside the diagonal: `-inf` as a lower end only where no coefficient of the
column has the lower end zero. -/
def ColOk {n : ℕ} (A : Fin n → Fin n → FIv) (j : Fin n) (X : FIv) : Prop :=
  (∃ i, i ≠ j ∧ (A i j).a.val = .fin 0) → LowFin X

theorem good_mul {X Y Z : FIv} {x y : ℝ} {s s' : Mode} (hX : Tame X) (hY : Tame Y) (mX : X.Mem x) (mY : Y.Mem y)
    {p : Prop} (hp : p → LowFin X ∧ (X.a.val = .fin 0 → LowFin Y)) (h : FIv.mul X Y s = (.ok Z, s')) : GoodF p Z (x * y) := by
  obtain ⟨d, c⟩ := mul_dbls hX.1 hY.1 h
  obtain ⟨W, e, h1, h2⟩ := C61_product_iff X Y s hX.1 hY.1 hX.2 hY.2 ⟨x, mX⟩ ⟨y, mY⟩
  rw [e] at h
  cases h
  refine ⟨c, d, ?_⟩
  by_cases hn : ZeroAndNegInf X.a.val Y.a.val
  · refine Or.inr ⟨fun h => ?_, h2 hn⟩
    rcases hn with ⟨hz, hn⟩ | ⟨hn, -⟩
    · exact (hp h).2 hz hn
    · exact (hp h).1 hn
  · exact Or.inl (h1.2 hn x y mX mY)

theorem nan_of_dbl {n : Num} {d : Dbl} (e : n = .dbl d) (h : n.IsNaN) : n = .dbl .nan := by
  rw [e] at h ⊢
  rw [isNaN_val] at h
  simp only [Num.val] at h
  rw [h]

theorem good_add {p : Prop} {X Y Z : FIv} {x y : ℝ} {s s' : Mode} (hX : GoodF p X x) (hY : GoodF p Y y)
    (h : FIv.add X Y s = (.ok Z, s')) : GoodF p Z (x + y) := by
  obtain ⟨d, c⟩ := add_dbls hX.1 h
  refine ⟨c.trans hY.1, d, ?_⟩
  obtain ⟨e1, e2, f1, f2⟩ := d
  obtain ⟨n1, n2⟩ := C120_add_iff X Y s Z (by rw [h])
  rcases hX.2.2 with mX | ⟨np, a1, a2⟩
  · rcases hY.2.2 with mY | ⟨np, b1, b2⟩
    · left
      obtain ⟨⟨W, e, hW⟩, -⟩ := C01_float_encloses X Y s (hX.2.1.ints _) (hY.2.1.ints _)
      rw [e] at h
      cases h
      exact hW x y mX mY
    · right
      exact ⟨np, nan_of_dbl f1 (n1.2 (Or.inr (Or.inl (by rw [b1]; rfl)))), nan_of_dbl f2 (n2.2 (Or.inr (Or.inl (by rw [b2]; rfl))))⟩
  · right
    exact ⟨np, nan_of_dbl f1 (n1.2 (Or.inl (by rw [a1]; rfl))), nan_of_dbl f2 (n2.2 (Or.inl (by rw [a2]; rfl)))⟩

theorem good_sub {p : Prop} {X Y Z : FIv} {x y : ℝ} {s s' : Mode} (hX : GoodF p X x) (hY : GoodF p Y y)
    (h : FIv.sub X Y s = (.ok Z, s')) : GoodF p Z (x - y) := by
  obtain ⟨d, c⟩ := sub_dbls hX.1 h
  refine ⟨c.trans hY.1, d, ?_⟩
  obtain ⟨cX, ⟨p1, p2, q1, q2⟩, gX⟩ := hX
  obtain ⟨cY, ⟨r1, r2, t1, t2⟩, gY⟩ := hY
  rcases gX with mX | ⟨np, a1, a2⟩
  · rcases gY with mY | ⟨np, b1, b2⟩
    · left
      obtain ⟨-, W, e, hW⟩ := C01_float_encloses X Y s (by rw [q1, q2]; exact ⟨trivial, trivial⟩)
        (by rw [t1, t2]; exact ⟨trivial, trivial⟩)
      rw [e] at h
      cases h
      exact hW x y mX mY
    · right
      obtain ⟨cx, xa, xb⟩ := X
      obtain ⟨cy, ya, yb⟩ := Y
      simp only at *
      subst q1 q2 b1 b2
      cases p1 <;> cases p2 <;> cases h <;> exact ⟨np, rfl, rfl⟩
  · right
    obtain ⟨cx, xa, xb⟩ := X
    obtain ⟨cy, ya, yb⟩ := Y
    simp only at *
    subst t1 t2 a1 a2
    cases r1 <;> cases r2 <;> cases h <;> exact ⟨np, rfl, rfl⟩

theorem radd_nan (k : Cls) (s : Mode) : FIv.radd (.int 0) ⟨k, .dbl .nan, .dbl .nan⟩ s = (.ok ⟨k, .dbl .nan, .dbl .nan⟩, s) := by
  cases k <;> cases s <;> decide +kernel

theorem good_radd {p : Prop} {X Z : FIv} {x : ℝ} {s s' : Mode} (hX : GoodF p X x) (h : FIv.radd (.int 0) X s = (.ok Z, s')) : GoodF p Z x := by
  obtain ⟨d, c⟩ := two_dbls h
  refine ⟨c.trans hX.1, d, ?_⟩
  rcases hX.2.2 with mX | ⟨np, a1, a2⟩
  · left
    obtain ⟨⟨W, e, hW⟩, -⟩ := C05_float_sums_enclose X (.int 0) 0 s (hX.2.1.ints _) (by norm_num [Num.IntsLe]) (by simp [Num.val])
    rw [e] at h
    cases h
    simpa using hW x mX
  · right
    obtain ⟨cx, xa, xb⟩ := X
    simp only at *
    subst a1 a2
    rw [radd_nan] at h
    cases h
    exact ⟨np, rfl, rfl⟩

theorem good_div {p : Prop} {X Y Z : FIv} {x y : ℝ} {s s' : Mode} (hX : GoodF p X x) (hY : Tame Y) (mY : Y.Mem y)
    (hp : p → LowFin Y) (h : FIv.div X Y s = (.ok Z, s')) : GoodF p Z (x / y) ∧ ¬ Y.Mem 0 := by
  have i53 : ∀ {n : Num}, n.IntsLe (2 ^ 26) → n.IntsLe (2 ^ 53 - 1) := fun h => h.mono (by norm_num)
  have h0 : ¬ Y.Mem 0 := by
    intro h0
    have hc : Y.containsNum (.dbl (.fin 0)) = true := by
      rw [show Y.containsNum (.dbl (.fin 0)) = Y.containsNum (.int 0) from by simp [FIv.containsNum, Num.le, Num.val],
        contains_iff_mem]
      exact h0
    unfold FIv.div at h
    rw [if_pos hc] at h
    cases h
  have hdb : Dbls Z ∧ Z.cls = .classical := by
    have hd := h
    unfold FIv.div at hd
    rw [if_neg (by rw [show Y.containsNum (.dbl (.fin 0)) = Y.containsNum (.int 0) from by simp [FIv.containsNum, Num.le, Num.val], contains_iff_mem]; exact h0), hX.1, hY.1] at hd
    exact two_dbls hd
  refine ⟨⟨hdb.2, hdb.1, ?_⟩, h0⟩
  obtain ⟨e1, e2, f1, f2⟩ := hdb.1
  rcases hX.2.2 with mX | ⟨np, a1, a2⟩
  · obtain ⟨-, hd⟩ := C135_quotient_iff X Y s hX.1 hY.1 (hX.2.1.ints _) ⟨i53 hY.2.1, i53 hY.2.2⟩ ⟨x, mX⟩ ⟨y, mY⟩
    obtain ⟨W, e, h1, h2⟩ := hd h0
    rw [e] at h
    cases h
    by_cases hn : X.a.val = .ninf ∧ Y.a.val = .ninf
    · exact Or.inr ⟨fun h => hp h hn.2, h2 hn⟩
    · exact Or.inl (h1.2 hn x y mX mY)
  · right
    obtain ⟨n1, n2⟩ := C120_div_iff X Y hX.1 hY.1 s Z (by rw [h])
    have hq : QuotNaN X.a.val Y.a.val := Or.inl (by rw [a1]; rfl)
    exact ⟨np, nan_of_dbl f1 (n1.2 hq), nan_of_dbl f2 (n2.2 hq)⟩

/-! ## Sums, one row -/

theorem good_muls {p : Prop} {ι : Type} (l : List ι) (f g : ι → FIv) (u v : ι → ℝ)
    (hf : ∀ j ∈ l, Tame (f j) ∧ (f j).Mem (u j)) (hg : ∀ j ∈ l, Tame (g j) ∧ (g j).Mem (v j))
    (hp : p → ∀ j ∈ l, LowFin (f j) ∧ ((f j).a.val = .fin 0 → LowFin (g j))) :
    ∀ {P : List FIv} {s s' : Mode}, mulsN (l.map fun j => (f j, g j)) s = (.ok P, s') →
      List.Forall₂ (fun Z t => GoodF p Z t) P (l.map fun j => u j * v j) := by
  induction l with
  | nil =>
    intro P s s' h
    cases h
    exact List.Forall₂.nil
  | cons j l ih =>
    intro P s s' h
    simp only [List.map_cons, mulsN] at h
    obtain ⟨z, t, h1, h⟩ := bind_split h
    obtain ⟨zs, t', h2, h⟩ := bind_split h
    cases h
    exact List.Forall₂.cons (good_mul (hf j (by simp)).1 (hg j (by simp)).1 (hf j (by simp)).2 (hg j (by simp)).2
      (fun h => hp h j (by simp)) h1)
      (ih (fun i hi => hf i (by simp [hi])) (fun i hi => hg i (by simp [hi])) (fun h i hi => hp h i (by simp [hi])) h2)

theorem good_sumFrom {p : Prop} {P : List FIv} {vs : List ℝ} (hP : List.Forall₂ (fun Z t => GoodF p Z t) P vs) :
    ∀ {acc Z : FIv} {v : ℝ} {s s' : Mode}, GoodF p acc v → sumFromN acc P s = (.ok Z, s') → GoodF p Z (v + vs.sum) := by
  induction hP with
  | nil =>
    intro acc Z v s s' ha h
    cases h
    simpa using ha
  | cons h1 _ ih =>
    intro acc Z v s s' ha h
    simp only [sumFromN] at h
    obtain ⟨S, t, e, h⟩ := bind_split h
    have := ih (good_add ha h1 e) h
    rw [List.sum_cons, ← add_assoc]
    exact this

theorem good_subSum {p : Prop} {P : List FIv} {vs : List ℝ} (hP : List.Forall₂ (fun Z t => GoodF p Z t) P vs) {X Z : FIv} {x : ℝ} {s s' : Mode}
    (hX : GoodF p X x) (h : subSumN X P s = (.ok Z, s')) : GoodF p Z (x - vs.sum) := by
  cases hP with
  | nil =>
    have := good_radd hX (show FIv.radd (.int 0) X s = (.ok Z, s') from h)
    simpa using this
  | cons h1 h2 =>
    simp only [subSumN] at h
    obtain ⟨a, t, e, h⟩ := bind_split h
    obtain ⟨S, t', e', h⟩ := bind_split h
    rw [List.sum_cons]
    exact good_sub hX (good_sumFrom h2 (good_radd h1 e) e') h

/-! ## Intersection -/

theorem inter_nan {X : FIv} (hX : X.a.IntsLe (2 ^ 26)) (k : Cls) (s : Mode) :
    X.intersect ⟨k, .dbl .nan, .dbl .nan⟩ s = (.ok ⟨.classical, .dbl .nan, .dbl .nan⟩, s) := by
  have h1 : interLo X ⟨k, .dbl .nan, .dbl .nan⟩ = X.a := by
    unfold interLo
    rw [if_neg]
    rw [show X.a.lt (.dbl .nan) = false from lt_nan _]
    simp
  have h2 : interHi X ⟨k, .dbl .nan, .dbl .nan⟩ = .dbl .nan := by
    unfold interHi
    rw [if_neg]
    rw [show X.b.lt (.dbl .nan) = false from lt_nan _]
    simp
  rw [run_intersect, h1, h2]
  obtain ⟨v, e, ev, -⟩ := num_sub s (hX.mono (by norm_num)) (show (Num.dbl .nan).IntsLe (2 ^ 52) from trivial)
  rw [e]
  have : v.le (.dbl (.fin interTol)) = false := by
    unfold Num.le
    rw [ev]
    cases X.a.val <;> rfl
  simp only [this]
  rfl

theorem inter_keeps {X Y : FIv} (hX : Tame X) (hY : Tame Y) {x : ℝ} (mX : X.Mem x) (mY : Y.Mem x) (s : Mode) :
    ∃ Z, X.intersect Y s = (.ok Z, s) ∧ Tame Z ∧ Z.Mem x ∧ (LowFin X → LowFin Z) := by
  have hlo := (interLo_lower (lower_ne_nan mX.1) (lower_ne_nan mY.1) x).2 ⟨mX.1, mY.1⟩
  have hhi := (interHi_upper (upper_ne_nan mX.2) (upper_ne_nan mY.2) x).2 ⟨mX.2, mY.2⟩
  have vlo : (interLo X Y).IntsLe (2 ^ 26) := by unfold interLo; split_ifs; exacts [hY.2.1, hX.2.1]
  have vhi : (interHi X Y).IntsLe (2 ^ 26) := by unfold interHi; split_ifs; exacts [hX.2.2, hY.2.2]
  have hle : (interHi X Y).lt (interLo X Y) = false := by
    unfold Num.lt
    revert hlo hhi
    generalize (interHi X Y).val = h
    generalize (interLo X Y).val = l
    intro h1 h2
    cases h <;> cases l <;> simp only [Dbl.Lower, Dbl.Upper] at h1 h2 <;> simp only [Dbl.lt]
    rw [decide_eq_false_iff_not, not_lt]
    exact_mod_cast h1.trans h2
  rw [run_intersect]
  obtain ⟨v, e, ev, -⟩ := num_sub s (vlo.mono (C := 2 ^ 52) (by norm_num)) (vhi.mono (C := 2 ^ 52) (by norm_num))
  have hv : v.le (.dbl (.fin interTol)) = true := by
    unfold Num.le
    rw [ev]
    revert hlo hhi
    generalize (interHi X Y).val = h
    generalize (interLo X Y).val = l
    intro h1 h2
    cases h <;> cases l <;> simp only [Dbl.Lower, Dbl.Upper] at h1 h2 <;> try rfl
    rename_i q p
    exact round_nonpos s (by have : p ≤ q := by exact_mod_cast h1.trans h2
                             linarith)
  rw [e]
  simp only [hv, hle, if_true, Bool.false_eq_true, if_false]
  refine ⟨_, rfl, ⟨rfl, vlo, vhi⟩, ⟨hlo, hhi⟩, fun hl => ?_⟩
  unfold LowFin at hl ⊢
  change (interLo X Y).val ≠ .ninf
  unfold interLo
  split_ifs with hc
  · intro h
    unfold Num.lt at hc
    rw [h] at hc
    cases hX' : X.a.val <;> rw [hX'] at hc <;> cases hc
  · exact hl

/-! ## No operation raises `Exception` by itself -/

/-- The computation does not raise `Exception`. -/
def NoExc {α : Type} (m : M α) : Prop := ∀ s e s', m s = (.error e, s') → e ≠ .exception

theorem NoExc.pure {α : Type} (a : α) : NoExc (Pure.pure a : M α) := by intro s e s' h; cases h

theorem NoExc.bind {α β : Type} {x : M α} {f : α → M β} (hx : NoExc x) (hf : ∀ a, NoExc (f a)) : NoExc (x >>= f) := by
  intro s e s' h
  rw [run_bind] at h
  cases hxs : x s with
  | mk r t =>
    rw [hxs] at h
    cases r with
    | ok a => exact hf a t e s' h
    | error e' => cases h; exact hx s _ _ hxs

theorem NoExc.op {α : Type} {f : Mode → Except Err α} (h : ∀ m e, f m = .error e → e ≠ .exception) : NoExc (M.op f) := by
  intro s e s' he
  simp only [M.op] at he
  exact h s e (congrArg Prod.fst he)

theorem NoExc.within {m : Mode} {x : M Num} (h : NoExc x) : NoExc (M.withRounding m x) := by
  intro s e s' he
  rw [run_with] at he
  have h1 := congrArg Prod.fst he
  exact h m e (x m).2 (Prod.ext h1 rfl)

theorem toDbl_noExc {n : Num} {e : Err} (h : n.toDbl = .error e) : e ≠ .exception := by
  cases n with
  | dbl d => cases h
  | int z =>
    simp only [Num.toDbl] at h
    split at h <;> cases h
    all_goals simp

theorem viaDbl_noExc {f : Dbl → Dbl → Except Err Dbl} (hf : ∀ p q e, f p q = .error e → e ≠ .exception) {x y : Num} {e : Err}
    (h : Num.viaDbl f x y = .error e) : e ≠ .exception := by
  unfold Num.viaDbl at h
  cases hx : x.toDbl with
  | error e' => rw [hx] at h; cases h; exact toDbl_noExc hx
  | ok p =>
    rw [hx] at h
    cases hy : y.toDbl with
    | error e' => rw [hy] at h; cases h; exact toDbl_noExc hy
    | ok q =>
      rw [hy] at h
      cases hf' : f p q with
      | error e' => 
        have h' : f p q = .error e := by
          rw [hf']
          simpa [bind, Except.bind, hf'] using h
        exact hf p q e h'
      | ok r => simp [bind, Except.bind, hf', Pure.pure, Except.pure] at h

theorem noExc_nadd (x y : Num) : NoExc (nadd x y) := NoExc.op fun m e h => by
  cases x <;> cases y <;> first | cases h | exact viaDbl_noExc (fun _ _ _ h => by cases h) h
theorem noExc_nsub (x y : Num) : NoExc (nsub x y) := NoExc.op fun m e h => by
  cases x <;> cases y <;> first | cases h | exact viaDbl_noExc (fun _ _ _ h => by cases h) h
theorem noExc_nmul (x y : Num) : NoExc (nmul x y) := NoExc.op fun m e h => by
  cases x <;> cases y <;> first | cases h | exact viaDbl_noExc (fun _ _ _ h => by cases h) h

theorem dblDiv_noExc {m : Mode} {p q : Dbl} {e : Err} (h : Dbl.div m p q = .error e) : e ≠ .exception := by
  unfold Dbl.div at h
  split at h <;> first | (split_ifs at h <;> cases h <;> simp) | cases h

theorem noExc_ndiv (x y : Num) : NoExc (ndiv x y) := NoExc.op fun m e h => by
  cases x <;> cases y
  · simp only [Num.div] at h
    split_ifs at h
    · cases h; simp
    · split at h <;> cases h
      simp
  all_goals exact viaDbl_noExc (fun _ _ _ h => dblDiv_noExc h) h

theorem noExc_store {x : M Num} (h : NoExc x) : NoExc (store x) :=
  h.bind fun v => NoExc.op fun _ e he => by
    cases hv : v.toDbl with
    | error e' => rw [hv] at he; cases he; exact toDbl_noExc hv
    | ok d => rw [hv] at he; cases he

theorem noExc_two {p q : M Num} {k : Cls} (hp : NoExc p) (hq : NoExc q) : NoExc (do
      let inf ← M.withRounding .down (store p)
      let sup ← M.withRounding .up (store q)
      pure (⟨k, inf, sup⟩ : FIv) : M FIv) :=
  ((noExc_store hp).within).bind fun _ => ((noExc_store hq).within).bind fun _ => NoExc.pure _

theorem noExc_min4 {p q r t : M Num} (h1 : NoExc p) (h2 : NoExc q) (h3 : NoExc r) (h4 : NoExc t) : NoExc (min4 p q r t) :=
  h1.bind fun _ => h2.bind fun _ => h3.bind fun _ => h4.bind fun _ => NoExc.pure _
theorem noExc_max4 {p q r t : M Num} (h1 : NoExc p) (h2 : NoExc q) (h3 : NoExc r) (h4 : NoExc t) : NoExc (max4 p q r t) :=
  h1.bind fun _ => h2.bind fun _ => h3.bind fun _ => h4.bind fun _ => NoExc.pure _

theorem noExc_radd (c : Num) (X : FIv) : NoExc (radd c X) := noExc_two (noExc_nadd _ _) (noExc_nadd _ _)
theorem noExc_add (X Y : FIv) : NoExc (FIv.add X Y) := noExc_two (noExc_nadd _ _) (noExc_nadd _ _)
theorem noExc_sub (X Y : FIv) : NoExc (FIv.sub X Y) := noExc_two (noExc_nsub _ _) (noExc_nsub _ _)

theorem noExc_mul {X Y : FIv} (cX : X.cls = .classical) (cY : Y.cls = .classical) : NoExc (FIv.mul X Y) := by
  unfold FIv.mul
  rw [cX, cY]
  exact noExc_two (noExc_min4 (noExc_nmul _ _) (noExc_nmul _ _) (noExc_nmul _ _) (noExc_nmul _ _))
    (noExc_max4 (noExc_nmul _ _) (noExc_nmul _ _) (noExc_nmul _ _) (noExc_nmul _ _))

theorem noExc_div {X Y : FIv} (cX : X.cls = .classical) (cY : Y.cls = .classical) : NoExc (FIv.div X Y) := by
  unfold FIv.div
  split_ifs
  · intro s e s' h; cases h; simp
  · rw [cX, cY]
    exact noExc_two (noExc_min4 (noExc_ndiv _ _) (noExc_ndiv _ _) (noExc_ndiv _ _) (noExc_ndiv _ _))
      (noExc_max4 (noExc_ndiv _ _) (noExc_ndiv _ _) (noExc_ndiv _ _) (noExc_ndiv _ _))

theorem noExc_muls {ι : Type} (l : List ι) (f g : ι → FIv) (hf : ∀ j ∈ l, (f j).cls = .classical)
    (hg : ∀ j ∈ l, (g j).cls = .classical) : NoExc (mulsN (l.map fun j => (f j, g j))) := by
  induction l with
  | nil => exact NoExc.pure _
  | cons j l ih =>
    simp only [List.map_cons, mulsN]
    exact (noExc_mul (hf j (by simp)) (hg j (by simp))).bind fun _ =>
      (ih (fun i hi => hf i (by simp [hi])) (fun i hi => hg i (by simp [hi]))).bind fun _ => NoExc.pure _

theorem noExc_sumFrom (P : List FIv) : ∀ acc, NoExc (sumFromN acc P) := by
  induction P with
  | nil => exact fun acc => NoExc.pure _
  | cons h t ih => exact fun acc => (noExc_add acc h).bind fun s => ih s

theorem noExc_subSum (X : FIv) (P : List FIv) : NoExc (subSumN X P) := by
  cases P with
  | nil => exact (noExc_two (noExc_nadd _ _) (noExc_nadd _ _))
  | cons h t => exact (noExc_radd _ _).bind fun a => (noExc_sumFrom t a).bind fun S => noExc_sub X S

theorem noExc_isnan (X : FIv) : NoExc (M.op fun _ => isnanF X) := NoExc.op fun _ e h => by
  unfold isnanF at h
  split at h
  · cases h; exact toDbl_noExc (by assumption)
  · cases h
  · split at h
    · cases h; exact toDbl_noExc (by assumption)
    · cases h
    · cases h

theorem noExc_max (x y : Num) : NoExc (M.op fun _ => Num.npMaximum x y) := NoExc.op fun m e h => by
  cases x <;> cases y <;> first | cases h | exact viaDbl_noExc (fun _ _ _ h => by cases h) h

theorem noExc_dist (X Y : FIv) : NoExc (FIv.dist X Y) :=
  (noExc_nsub _ _).bind fun _ => (noExc_nsub _ _).bind fun _ => noExc_max _ _

theorem noExc_distVec (l : List (FIv × FIv)) : NoExc (FIv.distVec l) := by
  cases l with
  | nil => intro s e s' h; cases h; simp
  | cons q qs =>
    refine (noExc_dist _ _).bind fun d => ?_
    induction qs generalizing d with
    | nil => exact NoExc.pure _
    | cons r rs ih =>
      rw [List.foldlM_cons]
      exact ((noExc_dist _ _).bind fun _ => noExc_max _ _).bind fun d' => ih d'

theorem bind_err {α β : Type} {x : M α} {f : α → M β} {s s' : Mode} {e : Err} (h : (x >>= f) s = (.error e, s')) :
    x s = (.error e, s') ∨ ∃ a t, x s = (.ok a, t) ∧ f a t = (.error e, s') := by
  rw [run_bind] at h
  cases hx : x s with
  | mk r t =>
    rw [hx] at h
    cases r with
    | ok a => exact Or.inr ⟨a, t, rfl, h⟩
    | error e' => cases h; exact Or.inl rfl

/-! ## NaN spreads -/

/-- Both ends are NaN. -/
def NaNB (X : FIv) : Prop := X.a.IsNaN ∧ X.b.IsNaN

theorem nanb_add {X Y Z : FIv} {s s' : Mode} (hn : NaNB X ∨ NaNB Y) (h : FIv.add X Y s = (.ok Z, s')) : NaNB Z := by
  obtain ⟨n1, n2⟩ := C120_add_iff X Y s Z (by rw [h])
  rcases hn with ⟨h1, h2⟩ | ⟨h1, h2⟩
  · exact ⟨n1.2 (Or.inl (isNaN_val.1 h1)), n2.2 (Or.inl (isNaN_val.1 h2))⟩
  · exact ⟨n1.2 (Or.inr (Or.inl (isNaN_val.1 h1))), n2.2 (Or.inr (Or.inl (isNaN_val.1 h2)))⟩

theorem nanb_sub {X Y Z : FIv} {s s' : Mode} (hn : NaNB X ∨ NaNB Y) (h : FIv.sub X Y s = (.ok Z, s')) : NaNB Z := by
  have h1 : X.a.IsNaN ∨ Y.b.IsNaN := hn.imp And.left And.right
  have h2 : X.b.IsNaN ∨ Y.a.IsNaN := hn.imp And.right And.left
  have : Ret (FIv.sub X Y) NaNB :=
    Ret.bind (Ret.within (ret_nsub h1).store) fun p hp => Ret.bind (Ret.within (ret_nsub h2).store) fun q hq =>
      Ret.pure (by obtain ⟨_, a1, e1⟩ := hp; obtain ⟨_, a2, e2⟩ := hq; exact ⟨e1.2 a1, e2.2 a2⟩)
  exact this s Z (by rw [h])

theorem nanb_radd {X Z : FIv} {c : Num} {s s' : Mode} (hn : NaNB X) (h : FIv.radd c X s = (.ok Z, s')) : NaNB Z := by
  have : Ret (FIv.radd c X) (fun Z => (Z.a.IsNaN ↔ SumNaN X.a.val c.val) ∧ (Z.b.IsNaN ↔ SumNaN X.b.val c.val)) :=
    Ret.bind (Ret.within (ret_nadd _ _).store_iff) fun p hp => Ret.bind (Ret.within (ret_nadd _ _).store_iff) fun q hq =>
      Ret.pure ⟨hp, hq⟩
  obtain ⟨n1, n2⟩ := this s Z (by rw [h])
  exact ⟨n1.2 (Or.inl (isNaN_val.1 hn.1)), n2.2 (Or.inl (isNaN_val.1 hn.2))⟩

theorem nanb_muls {ι : Type} (l : List ι) (f g : ι → FIv) (hf : ∀ j ∈ l, (f j).cls = .classical)
    (hg : ∀ j ∈ l, (g j).cls = .classical) {j : ι} (hj : j ∈ l) (hz : (f j).a.val = .fin 0) (hi : (g j).a.val = .ninf) :
    ∀ {P : List FIv} {s s' : Mode}, mulsN (l.map fun j => (f j, g j)) s = (.ok P, s') → ∃ Z ∈ P, NaNB Z := by
  induction l with
  | nil => simp at hj
  | cons i l ih =>
    intro P s s' h
    simp only [List.map_cons, mulsN] at h
    obtain ⟨z, t, h1, h⟩ := bind_split h
    obtain ⟨zs, t', h2, h⟩ := bind_split h
    cases h
    rcases List.mem_cons.mp hj with rfl | hj
    · obtain ⟨n1, n2⟩ := C120_mul_iff _ _ (hf j (by simp)) (hg j (by simp)) s z (by rw [h1])
      have hp : ProdNaN (f j).a.val (g j).a.val := Or.inr (Or.inr (Or.inl ⟨hz, Or.inr hi⟩))
      exact ⟨z, by simp, n1.2 hp, n2.2 hp⟩
    · obtain ⟨Z, hZ, hn⟩ := ih (fun i hi => hf i (by simp [hi])) (fun i hi => hg i (by simp [hi])) hj h2
      exact ⟨Z, by simp [hZ], hn⟩

theorem nanb_sumFrom (P : List FIv) : ∀ {acc Z : FIv} {s s' : Mode}, (NaNB acc ∨ ∃ W ∈ P, NaNB W) →
    sumFromN acc P s = (.ok Z, s') → NaNB Z := by
  induction P with
  | nil =>
    intro acc Z s s' hn h
    cases h
    simpa using hn
  | cons a P ih =>
    intro acc Z s s' hn h
    simp only [sumFromN] at h
    obtain ⟨S, t, e, h⟩ := bind_split h
    refine ih ?_ h
    rcases hn with hn | ⟨W, hW, hn⟩
    · exact Or.inl (nanb_add (Or.inl hn) e)
    · rcases List.mem_cons.mp hW with rfl | hW
      · exact Or.inl (nanb_add (Or.inr hn) e)
      · exact Or.inr ⟨W, hW, hn⟩

theorem nanb_subSum {P : List FIv} {X Z : FIv} {s s' : Mode} (hn : ∃ W ∈ P, NaNB W) (h : subSumN X P s = (.ok Z, s')) :
    NaNB Z := by
  cases P with
  | nil => simp at hn
  | cons a P =>
    simp only [subSumN] at h
    obtain ⟨a', t, e, h⟩ := bind_split h
    obtain ⟨S, t', e', h⟩ := bind_split h
    refine nanb_sub (Or.inr (nanb_sumFrom P ?_ e')) h
    obtain ⟨W, hW, hn⟩ := hn
    rcases List.mem_cons.mp hW with rfl | hW
    · exact Or.inl (nanb_radd hn e)
    · exact Or.inr ⟨W, hW, hn⟩

/-! ## One component, one sweep -/

theorem bar_spec {n : ℕ} {p : Prop} {A : Fin n → Fin n → FIv} {b res pre : Fin n → FIv} (hA : ∀ i j, Tame (A i j))
    (hb : ∀ i, Tame (b i) ∧ Dbls (b i)) (hpA : p → ∀ i j, LowFin (A i j)) {x : Fin n → ℝ} (hx : UnitedF A b x) (k : Fin n)
    (hres : ∀ j, j < k → Tame (res j) ∧ (res j).Mem (x j) ∧ (p → ColOk A j (res j)))
    (hpre : ∀ j, Tame (pre j) ∧ (pre j).Mem (x j) ∧ (p → ColOk A j (pre j))) (s : Mode) :
    (∀ e s', gsBarN A b res pre k s = (.error e, s') → e ≠ .exception) ∧
    ∀ Z s', gsBarN A b res pre k s = (.ok Z, s') → GoodF p Z (x k) ∧
      ∀ j, k < j → (A k j).a.val = .fin 0 → (pre j).a.val = .ninf → Z.a.IsNaN := by
  obtain ⟨A', hA', b', hb', he⟩ := hx
  have heq : A' k k * x k = b' k - (((List.finRange n).filter fun j => j < k).map fun j => A' k j * x j).sum
      - (((List.finRange n).filter fun j => k < j).map fun j => A' k j * x j).sum := by
    rw [← he k, sum_split _ k]; ring
  have hlt : ∀ j ∈ (List.finRange n).filter fun j => j < k, j < k := fun j hj => by
    simpa using (List.mem_filter.mp hj).2
  have hgt : ∀ j ∈ (List.finRange n).filter fun j => k < j, k < j := fun j hj => by
    simpa using (List.mem_filter.mp hj).2
  have gb : GoodF p (b k) (b' k) := ⟨(hb k).1.1, (hb k).2, Or.inl (hb' k)⟩
  have gP : ∀ {P : List FIv} {s s' : Mode},
      mulsN (((List.finRange n).filter fun j => j < k).map fun j => (A k j, res j)) s = (.ok P, s') →
      List.Forall₂ (fun Z t => GoodF p Z t) P (((List.finRange n).filter fun j => j < k).map fun j => A' k j * x j) :=
    good_muls _ (fun j => A k j) res _ _ (fun j _ => ⟨hA k j, hA' k j⟩)
      (fun j hj => ⟨(hres j (hlt j hj)).1, (hres j (hlt j hj)).2.1⟩)
      (fun h j hj => ⟨hpA h k j, fun hz => (hres j (hlt j hj)).2.2 h ⟨k, (hlt j hj).ne', hz⟩⟩)
  have gQ : ∀ {P : List FIv} {s s' : Mode},
      mulsN (((List.finRange n).filter fun j => k < j).map fun j => (A k j, pre j)) s = (.ok P, s') →
      List.Forall₂ (fun Z t => GoodF p Z t) P (((List.finRange n).filter fun j => k < j).map fun j => A' k j * x j) :=
    good_muls _ (fun j => A k j) pre _ _ (fun j _ => ⟨hA k j, hA' k j⟩)
      (fun j _ => ⟨(hpre j).1, (hpre j).2.1⟩) (fun h j hj => ⟨hpA h k j, fun hz => (hpre j).2.2 h ⟨k, (hgt j hj).ne, hz⟩⟩)
  constructor
  · intro e s' h
    unfold gsBarN at h
    rcases bind_err h with h | ⟨P, t, hP, h⟩
    · exact noExc_muls _ (fun j => A k j) res (fun j _ => (hA k j).1) (fun j hj => (hres j (hlt j hj)).1.1) s e s' h
    rcases bind_err h with h | ⟨u, t1, hu, h⟩
    · exact noExc_subSum _ _ _ _ _ h
    rcases bind_err h with h | ⟨Q, t2, hQ, h⟩
    · exact noExc_muls _ (fun j => A k j) pre (fun j _ => (hA k j).1) (fun j _ => (hpre j).1.1) _ e s' h
    rcases bind_err h with h | ⟨v, t3, hv, h⟩
    · exact noExc_subSum _ _ _ _ _ h
    exact noExc_div (good_subSum (gQ hQ) (good_subSum (gP hP) gb hu) hv).1 (hA k k).1 _ _ _ h
  · intro Z s' h
    unfold gsBarN at h
    obtain ⟨P, t, hP, h⟩ := bind_split h
    obtain ⟨u, t1, hu, h⟩ := bind_split h
    obtain ⟨Q, t2, hQ, h⟩ := bind_split h
    obtain ⟨v, t3, hv, h⟩ := bind_split h
    have gv := good_subSum (gQ hQ) (good_subSum (gP hP) gb hu) hv
    obtain ⟨g, h0⟩ := good_div gv (hA k k) (hA' k k) (fun h => hpA h k k) h
    rw [← heq] at g
    have : A' k k ≠ 0 := fun h => h0 (h ▸ hA' k k)
    rw [mul_div_cancel_left₀ _ this] at g
    refine ⟨g, fun j hj hz hi => ?_⟩
    have nv := nanb_subSum (nanb_muls _ (fun j => A k j) pre (fun j _ => (hA k j).1) (fun j _ => (hpre j).1.1)
      (j := j) (by simpa using hj) hz hi hQ) hv
    exact (C120_div_iff v (A k k) gv.1 (hA k k).1 _ Z (by rw [h])).1.2 (Or.inl (isNaN_val.1 nv.1))

theorem sweep_spec {n : ℕ} {p : Prop} {A : Fin n → Fin n → FIv} {b pre : Fin n → FIv} (hA : ∀ i j, Tame (A i j))
    (hb : ∀ i, Tame (b i) ∧ Dbls (b i)) (hpA : p → ∀ i j, LowFin (A i j)) {x : Fin n → ℝ} (hx : UnitedF A b x)
    (hpre : ∀ j, Tame (pre j) ∧ (pre j).Mem (x j) ∧ (p → ColOk A j (pre j))) (ks : List (Fin n)) (hs : ks.Pairwise (· < ·)) :
    ∀ (res : Fin n → FIv) (s : Mode), (∀ j, j ∉ ks → Tame (res j) ∧ (res j).Mem (x j) ∧ (p → ColOk A j (res j))) →
      (p → ∀ e s', gsSweepN A b pre ks res s = (.error e, s') → e ≠ .exception) ∧
      ∀ res' s', gsSweepN A b pre ks res s = (.ok res', s') →
        (∀ j, Tame (res' j) ∧ (res' j).Mem (x j) ∧ (p → ColOk A j (res' j))) ∧
        ∀ k ∈ ks, ∀ j, k < j → (A k j).a.val = .fin 0 → LowFin (pre j) := by
  induction ks with
  | nil =>
    intro res s hres
    refine ⟨fun _ e s' h => (by cases h), fun res' s' h => ?_⟩
    cases h
    exact ⟨fun j => hres j (by simp), fun k hk => by simp at hk⟩
  | cons k ks ih =>
    intro res s hres
    have hlt : ∀ j, j < k → j ∉ k :: ks := by
      intro j hj hm
      rcases List.mem_cons.mp hm with e | e
      · exact (e ▸ hj).false
      · exact (hj.trans ((List.pairwise_cons.mp hs).1 j e)).false
    obtain ⟨b1, b2⟩ := bar_spec hA hb hpA hx k (fun j hj => hres j (hlt j hj)) hpre s
    have step : ∀ {bar : FIv} {t : Mode}, GoodF p bar (x k) →
        (∃ Z, (pre k).intersect bar t = (.ok Z, t) ∧ Tame Z ∧ Z.Mem (x k) ∧ (p → ColOk A k Z)) ∨
        (¬ p ∧ (pre k).intersect bar t = (.ok ⟨.classical, .dbl .nan, .dbl .nan⟩, t)) := by
      rintro ⟨kb, ba, bb⟩ t ⟨c, d, m | ⟨np, a1, a2⟩⟩
      · obtain ⟨Z, e, t1, m1, l1⟩ := inter_keeps (hpre k).1 (show Tame _ from ⟨c, d.ints _⟩) (hpre k).2.1 m t
        exact Or.inl ⟨Z, e, t1, m1, fun h hz => l1 ((hpre k).2.2 h hz)⟩
      · simp only at a1 a2
        subst a1 a2
        exact Or.inr ⟨np, inter_nan (hpre k).1.2.1 _ t⟩
    have next : ∀ {Z : FIv}, Tame Z ∧ Z.Mem (x k) ∧ (p → ColOk A k Z) → ∀ j, j ∉ ks →
        Tame (Function.update res k Z j) ∧ (Function.update res k Z j).Mem (x j) ∧
          (p → ColOk A j (Function.update res k Z j)) := by
      intro Z hZ j hj
      by_cases e : j = k
      · subst e; simpa using hZ
      · rw [Function.update_of_ne e]
        exact hres j (by simp [e, hj])
    constructor
    · intro hp e s' h
      simp only [gsSweepN] at h
      rcases bind_err h with h | ⟨bar, t, hbar, h⟩
      · exact b1 e s' h
      rcases step (t := t) (b2 bar t hbar).1 with ⟨Z, eZ, hZ⟩ | ⟨np, -⟩
      · rcases bind_err h with h | ⟨X, t1, hX, h⟩
        · rw [eZ] at h; cases h
        rw [eZ] at hX
        cases hX
        rcases bind_err h with h | ⟨bad, t2, hbad, h⟩
        · exact noExc_isnan _ _ _ _ h
        cases bad with
        | true => exact absurd (congrArg Prod.fst hbad) (isnanF_mem hZ.2.1)
        | false => exact (ih (List.pairwise_cons.mp hs).2 _ t2 (next hZ)).1 hp e s' h
      · exact absurd hp np
    · intro res' s' h
      simp only [gsSweepN] at h
      obtain ⟨bar, t, hbar, h⟩ := bind_split h
      obtain ⟨X, t1, hX, h⟩ := bind_split h
      obtain ⟨bad, t2, hbad, h⟩ := bind_split h
      rcases step (t := t) (b2 bar t hbar).1 with ⟨Z, eZ, hZ⟩ | ⟨-, eZ⟩
      · rw [eZ] at hX
        cases hX
        cases bad with
        | true => cases h
        | false =>
          obtain ⟨i1, i2⟩ := (ih (List.pairwise_cons.mp hs).2 _ t2 (next hZ)).2 res' s' h
          refine ⟨i1, fun k' hk' j hj hz hi => ?_⟩
          rcases List.mem_cons.mp hk' with rfl | hk'
          · obtain ⟨g, hn⟩ := b2 bar t hbar
            rcases g.2.2 with m | ⟨-, a1, a2⟩
            · exact lower_ne_nan m.1 (isNaN_val.1 (hn j hj hz hi))
            · obtain ⟨kb, ba, bb⟩ := bar
              simp only at a1 a2
              subst a1 a2
              rw [inter_nan (hpre k').1.2.1] at eZ
              cases eZ
              exact lower_ne_nan hZ.2.1.1 rfl
          · exact i2 k' hk' j hj hz hi
      · rw [eZ] at hX
        cases hX
        cases hbad
        cases h

theorem loop_spec {n : ℕ} {p : Prop} {A : Fin n → Fin n → FIv} {b : Fin n → FIv} (tol : Num) (hA : ∀ i j, Tame (A i j))
    (hb : ∀ i, Tame (b i) ∧ Dbls (b i)) (hpA : p → ∀ i j, LowFin (A i j)) {x : Fin n → ℝ} (hx : UnitedF A b x) :
    ∀ (fuel : ℕ) (d : Option Num) (pre res : Fin n → FIv) (s : Mode),
      (∀ j, Tame (pre j) ∧ (pre j).Mem (x j) ∧ (p → ColOk A j (pre j))) →
      ((0 < fuel ∧ d = none) ∨ ∀ j, (res j).Mem (x j)) →
      (p → ∀ e s', gsLoopN A b tol fuel d pre res s = (.error e, s') → e ≠ .exception) ∧
      ∀ Y s', gsLoopN A b tol fuel d pre res s = (.ok Y, s') → ∀ j, (Y j).Mem (x j) := by
  intro fuel
  induction fuel with
  | zero =>
    intro d pre res s _ h
    rcases h with h | h
    · exact absurd h.1 (lt_irrefl _)
    · exact ⟨fun _ e s' h => (by cases h), fun Y s' hY => by cases hY; exact h⟩
  | succ fuel ih =>
    intro d pre res s hpre h
    by_cases hd : gsFarN tol d = true
    · obtain ⟨s1, s2⟩ := sweep_spec hA hb hpA hx hpre (List.finRange n) (List.pairwise_lt_finRange n) res s
        (fun i hi => absurd (List.mem_finRange i) hi)
      constructor
      · intro hp e s' h
        rw [gsLoopN, if_pos hd] at h
        rcases bind_err h with h | ⟨r, t, hr, h⟩
        · exact s1 hp e s' h
        rcases bind_err h with h | ⟨d', t1, -, h⟩
        · exact noExc_distVec _ _ _ _ h
        have hr' := (s2 r t hr).1
        exact (ih (some d') r r t1 hr' (Or.inr fun j => (hr' j).2.1)).1 hp e s' h
      · intro Y s' h
        rw [gsLoopN, if_pos hd] at h
        obtain ⟨r, t, hr, h⟩ := bind_split h
        obtain ⟨d', t1, -, h⟩ := bind_split h
        have hr' := (s2 r t hr).1
        exact (ih (some d') r r t1 hr' (Or.inr fun j => (hr' j).2.1)).2 Y s' h
    · have hres : ∀ j, (res j).Mem (x j) := by
        rcases h with h | h
        · rw [h.2] at hd; exact absurd rfl hd
        · exact h
      rw [gsLoopN, if_neg hd]
      exact ⟨fun _ e s' h => (by cases h), fun Y s' hY => by cases hY; exact hres⟩

/-! ## C162 -/

/-- C162, the part about returned boxes in full: whatever the ends, infinite ones and overflowing sums and products included, a
returned box contains every solution of the start box.  (Missing: the exception, see `C162_bounded_partial` and `C162_false`.) -/
theorem C162_returns_partial {n : ℕ} (A : Fin n → Fin n → FIv) (b x0 : Fin n → FIv) (tol : Num) (maxiter : ℤ) (s : Mode)
    (hA : ∀ i j, Tame (A i j)) (hb : ∀ i, Tame (b i) ∧ Dbls (b i)) (h0 : ∀ i, Tame (x0 i)) (hm : 0 ≤ maxiter)
    (x : Fin n → ℝ) (hx : UnitedF A b x) (hx0 : ∀ i, (x0 i).Mem (x i))
    (Y : Fin n → FIv) (hY : (gsRunN A b x0 tol maxiter s).1 = .ok Y) : ∀ i, (Y i).Mem (x i) :=
  (loop_spec (p := False) tol hA hb (fun h => h.elim) hx (maxiter + 1).toNat none x0 _ s
    (fun j => ⟨h0 j, hx0 j, fun h => h.elim⟩) (Or.inl ⟨by omega, rfl⟩)).2 Y _ (Prod.ext hY rfl)

/-- C162 in full when no lower end of the matrix is `-inf`, and the lower end of a component of the start box is `-inf` only
where no coefficient of its column outside the diagonal has the lower end zero; upper ends may be infinite. -/
theorem C162_bounded_partial {n : ℕ} (A : Fin n → Fin n → FIv) (b x0 : Fin n → FIv) (tol : Num) (maxiter : ℤ) (s : Mode)
    (hA : ∀ i j, Tame (A i j)) (hb : ∀ i, Tame (b i) ∧ Dbls (b i)) (h0 : ∀ i, Tame (x0 i)) (hm : 0 ≤ maxiter)
    (lA : ∀ i j, LowFin (A i j)) (l0 : ∀ i j, i ≠ j → (A i j).a.val = .fin 0 → LowFin (x0 j))
    (x : Fin n → ℝ) (hx : UnitedF A b x) (hx0 : ∀ i, (x0 i).Mem (x i)) :
    (gsRunN A b x0 tol maxiter s).1 ≠ .error .exception ∧
    ∀ Y, (gsRunN A b x0 tol maxiter s).1 = .ok Y → ∀ i, (Y i).Mem (x i) := by
  obtain ⟨h1, h2⟩ := loop_spec (p := True) tol hA hb (fun _ => lA) hx (maxiter + 1).toNat none x0
    (fun _ => ⟨.classical, .int 0, .int 0⟩) s (fun j => ⟨h0 j, hx0 j, fun _ ⟨i, hi, hz⟩ => l0 i j hi hz⟩) (Or.inl ⟨by omega, rfl⟩)
  exact ⟨fun h => h1 trivial _ _ (Prod.ext h rfl) rfl, fun Y hY => h2 Y _ (Prod.ext hY rfl)⟩

/-- Where it goes wrong, for every system: a coefficient above the diagonal with the lower end zero and a component of the start
box with the lower end `-inf` in its column.  Then no box is returned although the start box contains a solution. -/
theorem C162_zero_false {n : ℕ} (A : Fin n → Fin n → FIv) (b x0 : Fin n → FIv) (tol : Num) (maxiter : ℤ) (s : Mode)
    (hA : ∀ i j, Tame (A i j)) (hb : ∀ i, Tame (b i) ∧ Dbls (b i)) (h0 : ∀ i, Tame (x0 i)) (hm : 0 ≤ maxiter)
    (x : Fin n → ℝ) (hx : UnitedF A b x) (hx0 : ∀ i, (x0 i).Mem (x i))
    (k j : Fin n) (hkj : k < j) (hz : (A k j).a.val = .fin 0) (hi : (x0 j).a.val = .ninf) (Y : Fin n → FIv) :
    (gsRunN A b x0 tol maxiter s).1 ≠ .ok Y := by
  intro hY
  obtain ⟨m, rfl⟩ := Int.eq_ofNat_of_zero_le hm
  have h : gsRunN A b x0 tol m s = (.ok Y, _) := Prod.ext hY rfl
  unfold gsRunN at h
  rw [show ((m : ℤ) + 1).toNat = m + 1 from by omega, gsLoopN, if_pos (show gsFarN tol none = true from rfl)] at h
  obtain ⟨r, t, hr, -⟩ := bind_split h
  exact ((sweep_spec (p := False) hA hb (fun h => h.elim) hx (fun j => ⟨h0 j, hx0 j, fun h => h.elim⟩) (List.finRange n)
    (List.pairwise_lt_finRange n) _ s (fun i hi => absurd (List.mem_finRange i) hi)).2 r t hr).2 k (List.mem_finRange k) j hkj
    hz hi

/-! ## The counterexample -/

/-- A degenerate interval. -/
def ptF (q : ℚ) : FIv := ⟨.classical, .dbl (.fin q), .dbl (.fin q)⟩

/-- The identity matrix. -/
def idF : Fin 2 → Fin 2 → FIv := fun i j => if i = j then ptF 1 else ptF 0

/-- The right-hand side `(1, 2)`. -/
def rhsF : Fin 2 → FIv := fun i => if i = 0 then ptF 1 else ptF 2

/-- The whole plane. -/
def planeF : Fin 2 → FIv := fun _ => ⟨.classical, .dbl .ninf, .dbl .pinf⟩

/-- The first quadrant. -/
def quadF : Fin 2 → FIv := fun _ => ⟨.classical, .dbl (.fin 0), .dbl .pinf⟩

/-- The result of a run as an error or the two components. -/
def outF (r : Except Err (Fin 2 → FIv)) : Sum Err (FIv × FIv) :=
  match r with
  | .error e => .inl e
  | .ok Y => .inr (Y 0, Y 1)

theorem mem_pt (q : ℚ) : (ptF q).Mem (q : ℝ) := ⟨le_refl _, le_refl _⟩

theorem united_id : UnitedF idF rhsF ![1, 2] := by
  refine ⟨fun i j => if i = j then 1 else 0, fun i j => ?_, ![1, 2], fun i => ?_, fun i => by simp⟩
  · unfold idF
    by_cases h : i = j
    · simpa [h] using mem_pt 1
    · simpa [h] using mem_pt 0
  · fin_cases i
    · exact_mod_cast mem_pt 1
    · exact_mod_cast mem_pt 2

theorem tame_pt (q : ℚ) : Tame (ptF q) ∧ Dbls (ptF q) := ⟨⟨rfl, trivial, trivial⟩, _, _, rfl, rfl⟩

theorem tame_id (i j : Fin 2) : Tame (idF i j) := by unfold idF; split_ifs <;> exact (tame_pt _).1
theorem tame_rhs (i : Fin 2) : Tame (rhsF i) ∧ Dbls (rhsF i) := by unfold rhsF; split_ifs <;> exact tame_pt _

theorem plane_exception : outF (gsRunN idF rhsF planeF (.dbl (.fin (1 / 2 ^ 40))) 10 .nearest).1 = .inl .exception := by
  decide +kernel

/-- The system `x = 1, y = 2`, already in the form the iteration gets, on the whole plane: `0 * -inf` is NaN, the intersection
with NaN is NaN, and the exception "does not intersect" is raised although the solution `(1, 2)` exists. -/
theorem C162_plane_false : (∀ i j, Tame (idF i j)) ∧ (∀ i, Tame (rhsF i) ∧ Dbls (rhsF i)) ∧ (∀ i, Tame (planeF i)) ∧
    UnitedF idF rhsF ![1, 2] ∧ (∀ i, (planeF i).Mem ((![1, 2] : Fin 2 → ℝ) i)) ∧
    (gsRunN idF rhsF planeF (.dbl (.fin (1 / 2 ^ 40))) 10 .nearest).1 = .error .exception := by
  refine ⟨tame_id, tame_rhs, fun i => ⟨rfl, trivial, trivial⟩, united_id, fun i => ⟨trivial, trivial⟩, ?_⟩
  have h := plane_exception
  revert h
  generalize (gsRunN idF rhsF planeF (.dbl (.fin (1 / 2 ^ 40))) 10 .nearest).1 = r
  intro h
  cases r with
  | error e => simpa [outF] using h
  | ok Y => simp [outF] at h

theorem C162_false : ¬ C162_statement := by
  intro h
  obtain ⟨h1, h2, h3, h4, h5, h6⟩ := C162_plane_false
  exact (h 2 idF rhsF planeF _ 10 .nearest h1 h2 h3 (by norm_num) _ h4 h5).1 h6

/-! ## Examples -/

/-- The remaining hypotheses of `C162_zero_false` for this system. -/
example : (idF 0 1).a.val = .fin 0 ∧ (planeF 1).a.val = .ninf := ⟨rfl, rfl⟩

/-- On the first quadrant, unbounded above, the same system is solved. -/
example : outF (gsRunN idF rhsF quadF (.dbl (.fin (1 / 2 ^ 40))) 10 .nearest).1 = .inr (ptF 1, ptF 2) := by decide +kernel

/-- The hypotheses of `C162_bounded_partial` hold for it. -/
example : (∀ i j, LowFin (idF i j)) ∧ (∀ i j, i ≠ j → (idF i j).a.val = .fin 0 → LowFin (quadF j)) ∧ ∀ i, (quadF i).Mem ((![1, 2] : Fin 2 → ℝ) i) := by
  refine ⟨fun i j => ?_, fun _ _ _ _ h => (by cases h), fun i => ?_⟩
  · unfold idF; split_ifs <;> (intro h; cases h)
  · fin_cases i <;> exact ⟨by norm_num [quadF, Dbl.Lower, Num.val], trivial⟩

/-- A matrix with nonzero intervals off the diagonal. -/
def mixF : Fin 2 → Fin 2 → FIv := fun i j =>
  if i = j then ptF 1 else ⟨.classical, .dbl (.fin (1 / 4)), .dbl (.fin (1 / 2))⟩

/-- With coefficients bounded away from zero the whole plane raises nothing and the box stays as it is. -/
example : outF (gsRunN mixF rhsF planeF (.dbl (.fin (1 / 2 ^ 40))) 10 .nearest).1 = .inr (planeF 0, planeF 1) := by decide +kernel

/-- They hold for it too. -/
example : (∀ i j, LowFin (mixF i j)) ∧ ∀ i j, i ≠ j → (mixF i j).a.val = .fin 0 → LowFin (planeF j) := by
  refine ⟨fun i j => ?_, fun i j hij hz => ?_⟩
  · unfold mixF; split_ifs <;> (intro h; cases h)
  · simp [mixF, hij, Num.val] at hz

/-- On the first quadrant the first pass gives bounded components. -/
example : outF (gsRunN mixF rhsF quadF (.dbl (.fin (1 / 2 ^ 40))) 0 .nearest).1 =
    .inr (⟨.classical, .dbl (.fin 0), .dbl (.fin 1)⟩, ⟨.classical, .dbl (.fin (3 / 2)), .dbl (.fin 2)⟩) := by decide +kernel

/-- One more pass narrows them. -/
example : outF (gsRunN mixF rhsF quadF (.dbl (.fin (1 / 2 ^ 40))) 1 .nearest).1 =
    .inr (⟨.classical, .dbl (.fin 0), .dbl (.fin (5 / 8))⟩, ⟨.classical, .dbl (.fin (27 / 16)), .dbl (.fin 2)⟩) := by decide +kernel

/-- From `[0, 4]^2` the distance of the first pass is 3: the iteration stops for `tol = 4` and goes on for `tol = 3`. -/
example : outF (gsRunN mixF rhsF (fun _ => ⟨.classical, .dbl (.fin 0), .dbl (.fin 4)⟩) (.dbl (.fin 4)) 1 .nearest).1 =
      .inr (⟨.classical, .dbl (.fin 0), .dbl (.fin 1)⟩, ⟨.classical, .dbl (.fin (3 / 2)), .dbl (.fin 2)⟩) ∧
    outF (gsRunN mixF rhsF (fun _ => ⟨.classical, .dbl (.fin 0), .dbl (.fin 4)⟩) (.dbl (.fin 3)) 1 .nearest).1 =
      .inr (⟨.classical, .dbl (.fin 0), .dbl (.fin (5 / 8))⟩, ⟨.classical, .dbl (.fin (27 / 16)), .dbl (.fin 2)⟩) := by
  decide +kernel

end IntvalPy
