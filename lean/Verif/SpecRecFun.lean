import Verif.SpecKernel
import Mathlib.Algebra.BigOperators.Fin
import Mathlib.Algebra.BigOperators.Group.Finset.Basic

/-!
# Specification vocabulary for interval linear systems
-/

set_option autoImplicit false

namespace IntvalPy.Spec

variable {K : Type*} [Field K] [LinearOrder K] {m n : ℕ}

/-- The point matrix `A'` is contained in the interval matrix `A`. -/
def InMat (A' : Fin m → Fin n → K) (A : Fin m → Fin n → Iv K) : Prop := ∀ i j, A' i j ∈ A i j

/-- The point vector `b'` is contained in the interval vector `b`. -/
def InVec (b' : Fin m → K) (b : Fin m → Iv K) : Prop := ∀ i, b' i ∈ b i

/-- `A' x` -/
def apply (A' : Fin m → Fin n → K) (x : Fin n → K) (i : Fin m) : K := ∑ j, A' i j * x j

/-- Tolerable solutions: `A' x ∈ b` for all `A' ∈ A`. -/
def Tolerable (A : Fin m → Fin n → Iv K) (b : Fin m → Iv K) (x : Fin n → K) : Prop :=
  ∀ A', InMat A' A → InVec (apply A' x) b

/-- United solutions: `A' x = b'` for some `A' ∈ A`, `b' ∈ b`. -/
def United (A : Fin m → Fin n → Iv K) (b : Fin m → Iv K) (x : Fin n → K) : Prop :=
  ∃ A', InMat A' A ∧ ∃ b', InVec b' b ∧ ∀ i, apply A' x i = b' i

end IntvalPy.Spec

namespace IntvalPy.Spec
variable {K : Type*} [Field K] [LinearOrder K] {n : ℕ}

/-- `F` is defined and affine with slope `s` near `x`. -/
def LocallyAffine (F : (Fin n → K) → Except Err K) (x s : Fin n → K) : Prop :=
  ∃ v ε, 0 < ε ∧ F x = .ok v ∧ ∀ y : Fin n → K, (∀ j, |y j - x j| < ε) → F y = .ok (v + ∑ j, s j * (y j - x j))

end IntvalPy.Spec

namespace IntvalPy

/-- A bound passed by the user to `LinearConstraint`: a number or an infinity
(/repo/intvalpy/kernel/abstract.py:195-199). -/
inductive Bound (K : Type*)
  | fin (c : K)
  | pinf
  | ninf
  deriving DecidableEq

namespace Spec
variable {K : Type*} [Field K] [LinearOrder K] {p n : ℕ}

/-- `bound <= t` -/
def LowOK : Bound K → K → Prop
  | .fin c, t => c ≤ t
  | .ninf, _ => True
  | .pinf, _ => False

/-- `t <= bound` -/
def HighOK : Bound K → K → Prop
  | .fin c, t => t ≤ c
  | .pinf, _ => True
  | .ninf, _ => False

/-- `lb <= C x <= ub`, an absent bound being no restriction. -/
def Feasible (C : Fin p → Fin n → K) (lb ub : Option (Fin p → Bound K)) (x : Fin n → K) : Prop :=
  (∀ l, lb = some l → ∀ k, LowOK (l k) (apply C x k)) ∧ (∀ u, ub = some u → ∀ k, HighOK (u k) (apply C x k))

end Spec
end IntvalPy
