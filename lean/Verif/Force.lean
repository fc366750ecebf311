import Verif.ModelKernel
import Mathlib.Data.Fin.Tuple.Basic

/-!
# Strict evaluation inside the kernel

The kernel evaluates lazily, so that a long loop builds up unevaluated terms.  The functions below evaluate
an argument before it is used; each is proved to change nothing.  They are used by the recorded runs
(`RunsOpt`, `RunsRalg`) only.
-/

set_option autoImplicit false

namespace IntvalPy
namespace RunsOpt

section force
variable {α : Type}

/-- Apply `k` to the value of `n`. -/
def forceNat (n : ℕ) (k : ℕ → α) : α := match n with | 0 => k 0 | m + 1 => k (m + 1)

/-- Apply `k` to the value of `z`. -/
def forceInt (z : ℤ) (k : ℤ → α) : α := match z with
  | .ofNat n => forceNat n fun n => k (.ofNat n)
  | .negSucc n => forceNat n fun n => k (.negSucc n)

/-- Apply `k` to the value of `q`. -/
def forceQ (q : ℚ) (k : ℚ → α) : α := forceInt q.num fun n => forceNat q.den fun d => k (mkRat n d)

/-- Apply `k` to the value of `X`. -/
def forceIv (X : Iv ℚ) (k : Iv ℚ → α) : α :=
  match X.cls with
  | .classical => forceQ X.a fun a => forceQ X.b fun b => k ⟨.classical, a, b⟩
  | .kaucher => forceQ X.a fun a => forceQ X.b fun b => k ⟨.kaucher, a, b⟩

/-- Apply `k` to the components of `Y`. -/
def forceBox : (n : ℕ) → (Fin n → Iv ℚ) → ((Fin n → Iv ℚ) → α) → α
  | 0, Y, k => k Y
  | n + 1, Y, k => forceIv (Y 0) fun X => forceBox n (Fin.tail Y) fun Z => k (Fin.cons X Z)

/-- Apply `k` to the components of `v`. -/
def forceVec : (n : ℕ) → (Fin n → ℚ) → ((Fin n → ℚ) → α) → α
  | 0, v, k => k v
  | n + 1, v, k => forceQ (v 0) fun x => forceVec n (Fin.tail v) fun w => k (Fin.cons x w)

/-- Apply `k` to the rows of `M`. -/
def forceRows (n : ℕ) : (m : ℕ) → (Fin m → Fin n → ℚ) → ((Fin m → Fin n → ℚ) → α) → α
  | 0, M, k => k M
  | m + 1, M, k => forceVec n (M 0) fun v => forceRows n m (Fin.tail M) fun N => k (Fin.cons v N)

/-- Apply `k` to a list of numbers. -/
def forceList : List ℚ → (List ℚ → α) → α
  | [], k => k []
  | x :: l, k => forceQ x fun x => forceList l fun l' => k (x :: l')

/-- Apply `k` to a list with its spine evaluated. -/
def forceSpine {β : Type} : List β → (List β → α) → α
  | [], k => k []
  | x :: l, k => forceSpine l fun l' => k (x :: l')

theorem forceNat_eq (n : ℕ) (k : ℕ → α) : forceNat n k = k n := by cases n <;> rfl

theorem forceInt_eq (z : ℤ) (k : ℤ → α) : forceInt z k = k z := by
  cases z <;> simp [forceInt, forceNat_eq]

theorem forceQ_eq (q : ℚ) (k : ℚ → α) : forceQ q k = k q := by
  simp [forceQ, forceInt_eq, forceNat_eq, Rat.mkRat_self]

theorem forceIv_eq (X : Iv ℚ) (k : Iv ℚ → α) : forceIv X k = k X := by
  obtain ⟨c, a, b⟩ := X
  cases c <;> simp [forceIv, forceQ_eq]

theorem forceBox_eq (n : ℕ) (Y : Fin n → Iv ℚ) (k : (Fin n → Iv ℚ) → α) : forceBox n Y k = k Y := by
  induction n with
  | zero => rfl
  | succ n ih => simp [forceBox, forceIv_eq, ih, Fin.cons_self_tail]

theorem forceVec_eq (n : ℕ) (v : Fin n → ℚ) (k : (Fin n → ℚ) → α) : forceVec n v k = k v := by
  induction n with
  | zero => rfl
  | succ n ih => simp [forceVec, forceQ_eq, ih, Fin.cons_self_tail]

theorem forceRows_eq (n m : ℕ) (M : Fin m → Fin n → ℚ) (k : (Fin m → Fin n → ℚ) → α) :
    forceRows n m M k = k M := by
  induction m with
  | zero => rfl
  | succ m ih => simp [forceRows, forceVec_eq, ih, Fin.cons_self_tail]

theorem forceList_eq (l : List ℚ) (k : List ℚ → α) : forceList l k = k l := by
  induction l generalizing k with
  | nil => rfl
  | cons x l ih => simp [forceList, forceQ_eq, ih]

theorem forceSpine_eq {β : Type} (l : List β) (k : List β → α) : forceSpine l k = k l := by
  induction l generalizing k with
  | nil => rfl
  | cons x l ih => simp [forceSpine, ih]

end force

end RunsOpt
end IntvalPy
