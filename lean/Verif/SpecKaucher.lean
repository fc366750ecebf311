import Verif.SpecKernel
import Mathlib.Order.Bounds.Basic
import Mathlib.Algebra.Field.Defs

/-!
# Specification of Kaucher's product

The product of two directed intervals is obtained by letting each factor range over its points, a
proper factor contributing a union (least lower / greatest upper endpoint) and an improper factor an
intersection (greatest lower / least upper endpoint).
-/

set_option autoImplicit false

namespace IntvalPy.Spec

variable {K : Type*} [Field K] [LinearOrder K]

/-- Proper (ordered) interval, whatever its class. -/
def Proper (X : Iv K) : Prop := X.a ≤ X.b

/-- Points of the proper projection. -/
def Between (X : Iv K) (x : K) : Prop := min X.a X.b ≤ x ∧ x ≤ max X.a X.b

/-- Lower endpoint of `x · Y` for a number `x`: smallest product over a proper `Y`, largest over an
improper `Y`. -/
def loAt (Y : Iv K) (x : K) : K :=
  if Y.a ≤ Y.b then min (x * Y.a) (x * Y.b) else max (x * Y.a) (x * Y.b)

/-- Upper endpoint of `x · Y` for a number `x`. -/
def hiAt (Y : Iv K) (x : K) : K :=
  if Y.a ≤ Y.b then max (x * Y.a) (x * Y.b) else min (x * Y.a) (x * Y.b)

/-- `[u, v]` is the Kaucher product of `X` and `Y`. -/
def IsKaucherProduct (X Y : Iv K) (u v : K) : Prop :=
  let L : Set K := {t | ∃ x, Between X x ∧ t = loAt Y x}
  let H : Set K := {t | ∃ x, Between X x ∧ t = hiAt Y x}
  if X.a ≤ X.b then IsLeast L u ∧ IsGreatest H v else IsGreatest L u ∧ IsLeast H v

end IntvalPy.Spec
