import Verif.ProofsFloat
import Verif.PropsKernel
import Mathlib.Data.Real.Archimedean
import Mathlib.Data.Rat.Cast.Order
import Mathlib.Tactic.FinCases

/-!
# L1 properties: rounding mode (C07), integer endpoints (C08), binary64 enclosures and witnesses
-/

set_option autoImplicit false
set_option linter.unusedSectionVars false

namespace IntvalPy
open FIv

/-! ## C07 -/

/-- The computation ends in the rounding mode it started in, whether it returns or raises. -/
def Restores {α : Type} (x : M α) : Prop := ∀ s, (x s).2 = s

namespace Restores

theorem pure {α : Type} (a : α) : Restores (pure a : M α) := fun _ => rfl
theorem raise {α : Type} (e : Err) : Restores (M.raise e : M α) := fun _ => rfl
theorem op {α : Type} (f : Mode → Except Err α) : Restores (M.op f) := fun _ => rfl

theorem bind {α β : Type} {x : M α} {f : α → M β} (hx : Restores x) (hf : ∀ a, Restores (f a)) :
    Restores (x >>= f) := by
  intro s
  have h := hx s
  show (match x s with | (.ok a, s') => f a s' | (.error e, s') => (.error e, s')).2 = s
  rcases e : x s with ⟨r, s'⟩
  rw [e] at h
  cases r with
  | ok a => exact (hf a s').trans h
  | error err => exact h

theorem withRounding {α : Type} (m : Mode) (x : M α) : Restores (M.withRounding m x) := fun _ => rfl

theorem store {x : M Num} (h : Restores x) : Restores (FIv.store x) := bind h fun _ => op _

theorem plus (t : Num) : Restores (FIv.plus t) := store (pure _)

theorem parts (a b : Num) : Restores (FIv.parts a b) :=
  bind (plus _) fun _ => bind (plus _) fun _ => bind (store (op _)) fun _ => bind (store (op _)) fun _ =>
    pure _

theorem mulForm (f : Num → Num → Num → Num → Num → Num → Num → Num → M Num) (x y : FIv) :
    Restores (FIv.mulForm f x y) :=
  bind (parts _ _) fun _ => bind (parts _ _) fun _ => bind (withRounding _ _) fun _ =>
    bind (withRounding _ _) fun _ => pure _

theorem mul (x y : FIv) : Restores (FIv.mul x y) := by
  unfold FIv.mul
  split
  · exact bind (withRounding _ _) fun _ => bind (withRounding _ _) fun _ => pure _
  · exact mulForm _ _ _
  · exact mulForm _ _ _

theorem recip (c : Cls) (y : FIv) : Restores (FIv.recip c y) :=
  bind (withRounding _ _) fun _ => bind (withRounding _ _) fun _ => pure _

theorem rmul (c : Num) (x : FIv) : Restores (FIv.rmul c x) := by
  unfold FIv.rmul
  split
  · exact bind (withRounding _ _) fun _ => bind (withRounding _ _) fun _ => pure _
  · exact mulForm _ _ _

theorem div (x y : FIv) : Restores (FIv.div x y) := by
  unfold FIv.div
  split
  · exact raise _
  split
  · exact bind (withRounding _ _) fun _ => bind (withRounding _ _) fun _ => pure _
  · exact bind (recip _ _) fun _ => mul _ _
  · exact bind (recip _ _) fun _ => mulForm _ _ _
  · exact bind (recip _ _) fun _ => mul _ _

theorem radd (c : Num) (x : FIv) : Restores (FIv.radd c x) :=
  bind (withRounding _ _) fun _ => bind (withRounding _ _) fun _ => pure _

end Restores

/-- C07: every arithmetic operation of the kernel, with operands of any kind (integers, doubles,
infinities, NaN) and on normal and exceptional exits, leaves the rounding mode as it found it. -/
theorem C07_mode_restored (x y : FIv) (c : Num) (n : ℕ) (pw : Mode → Num → ℕ → Except Err Num)
    (lg : Mode → Num → Except Err Num) :
    Restores (FIv.add x y) ∧ Restores (FIv.sub x y) ∧ Restores (FIv.mul x y) ∧ Restores (FIv.div x y) ∧
    Restores (FIv.radd c x) ∧ Restores (FIv.rsub c x) ∧ Restores (FIv.rmul c x) ∧ Restores (FIv.rdiv c x) ∧
    Restores (FIv.subNum x c) ∧ Restores (FIv.divNum x c) ∧ Restores (FIv.inv x) ∧
    Restores (FIv.ufuncDiv c x) ∧ Restores (FIv.ufuncSub c x) ∧ Restores (FIv.powC pw x n) ∧ Restores (FIv.powK pw x n) ∧
    Restores (FIv.log lg x) := by
  refine ⟨?_, ?_, Restores.mul _ _, Restores.div _ _, Restores.radd _ _, ?_, Restores.rmul _ _, ?_,
    Restores.radd _ _, ?_, ?_, ?_, Restores.radd _ _, ?_, ?_, ?_⟩
  · exact .bind (.withRounding _ _) fun _ => .bind (.withRounding _ _) fun _ => .pure _
  · exact .bind (.withRounding _ _) fun _ => .bind (.withRounding _ _) fun _ => .pure _
  · exact .bind (.withRounding _ _) fun _ => .bind (.withRounding _ _) fun _ => .pure _
  · unfold FIv.rdiv
    split
    · exact .raise _
    · exact .bind (.recip _ _) fun _ => .rmul _ _
  · exact .bind (.op _) fun _ => .rmul _ _
  · exact .bind (.withRounding _ _) fun _ => .bind (.withRounding _ _) fun _ => .pure _
  · exact .bind (.withRounding _ _) fun _ => .bind (.withRounding _ _) fun _ => .rmul _ _
  · refine .bind (.withRounding _ _) fun _ => .bind (.withRounding _ _) fun _ => ?_
    split
    · exact .pure _
    · exact .pure _
  · refine .bind (.withRounding _ _) fun _ => .bind (.withRounding _ _) fun _ => ?_
    split
    · exact .pure _
    split
    · exact .pure _
    split
    · exact .pure _
    · exact .pure _
  · unfold FIv.log
    dsimp only
    split_ifs <;> first
      | exact .pure _
      | exact .bind (.withRounding _ _) fun _ => .bind (.withRounding _ _) fun _ => .pure _

/-- Both kinds of exit occur: a successful sum, and a division raising in the middle of a rounding
context. -/
example : (FIv.add ⟨.classical, .dbl .ninf, .int 2⟩ ⟨.classical, .dbl .ninf, .dbl .pinf⟩ .up).2 = .up ∧
    (FIv.inv ⟨.kaucher, .dbl (.fin 0), .int 1⟩ .nearest) = (.error .zeroDivisionError, .nearest) :=
  ⟨(C07_mode_restored _ _ (.int 0) 0 (fun _ _ _ => .ok (.int 0)) (fun _ _ => .ok (.int 0))).1 _, rfl⟩

/-- The outcome does not depend on the ambient rounding mode. -/
def ModeFree {α : Type} (x : M α) : Prop := ∀ s t, (x s).1 = (x t).1

theorem run_bind {α β : Type} (x : M α) (f : α → M β) (s : Mode) :
    (x >>= f) s = match x s with
      | (.ok a, s') => f a s'
      | (.error e, s') => (.error e, s') := rfl

theorem run_with {α : Type} (m : Mode) (x : M α) (s : Mode) :
    M.withRounding m x s = ((x m).1, s) := rfl

/-- Running the two-context skeleton used by all interval operations. -/
theorem run_two {α : Type} (p q : M Num) (f : Num → Num → α) (s : Mode) :
    (do
      let inf ← M.withRounding .down p
      let sup ← M.withRounding .up q
      pure (f inf sup) : M α) s
      = ((p .down).1.bind fun i => (q .up).1.map fun j => f i j, s) := by
  rw [run_bind, run_with]
  cases (p .down).1 with
  | error e => rfl
  | ok a =>
    show ((M.withRounding .up q >>= fun sup => pure (f a sup)) s) = _
    rw [run_bind, run_with]
    cases (q .up).1 <;> rfl

/-- C07 (consequence): the outcome of `+`, `-` and the classical `*`, `/` and of the reflected sums and
products of classical intervals does not depend on the ambient rounding mode at all. -/
theorem C07_outcome_mode_free (x y : FIv) (c : Num) (hx : x.cls = .classical) (hy : y.cls = .classical) :
    ModeFree (FIv.add x y) ∧ ModeFree (FIv.sub x y) ∧ ModeFree (FIv.mul x y) ∧ ModeFree (FIv.div x y) ∧
    ModeFree (FIv.radd c x) ∧ ModeFree (FIv.rsub c x) ∧ ModeFree (FIv.rmul c x) := by
  have two : ∀ (p q : M Num) (f : Num → Num → FIv), ModeFree (do
      let inf ← M.withRounding .down p
      let sup ← M.withRounding .up q
      pure (f inf sup)) := by
    intro p q f s t
    rw [run_two, run_two]
  refine ⟨two _ _ _, two _ _ _, ?_, ?_, two _ _ _, two _ _ _, ?_⟩
  · unfold FIv.mul; rw [hx, hy]; exact two _ _ _
  · unfold FIv.div; rw [hx, hy]
    split
    · intro s t; rfl
    · exact two _ _ _
  · unfold FIv.rmul; rw [hx]; exact two _ _ _

end IntvalPy
