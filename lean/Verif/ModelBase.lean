import Mathlib.Algebra.Order.Field.Basic
import Mathlib.Order.MinMax
import Mathlib.Tactic.Linarith

/-!
# Shared vocabulary of the L2 model (finite rounded arithmetic)

`K` is the ordered field that holds interval endpoints.  Overflow and NaN are not represented here
(see `FlBase` for the float-level model).
-/

set_option autoImplicit false

namespace IntvalPy

/-- Python exception classes that the modelled code raises (exceptions are values in this model).
Models the `raise` statements and the implicit exceptions of
/repo/intvalpy/kernel/interval_arithmetics.pyx:205-253,450,482 and of the solvers. -/
inductive Err
  | valueError
  | zeroDivisionError
  | typeError
  | overflowError
  | assertionError
  | indexError
  | attributeError
  | unboundLocalError
  | exception
  | notImplementedError
  | linAlgError
  deriving DecidableEq, Repr

/-- The two interval classes `ClassicalArithmetic` and `KaucherArithmetic`,
/repo/intvalpy/kernel/interval_arithmetics.pyx:391,529. -/
inductive Cls
  | classical
  | kaucher
  deriving DecidableEq, Repr

/-- An interval object: its class and its two endpoints,
/repo/intvalpy/kernel/interval_arithmetics.pyx:62-97 (`BaseTools`, properties `a` and `b`).
Simplification of L2: an endpoint is an element of an ordered field; the `int`/`double` distinction
of `__cinit__` is modelled at L1 only. -/
@[ext] structure Iv (K : Type*) where
  cls : Cls
  a : K
  b : K
  deriving DecidableEq, Repr

/-- The rounded results of floating-point operations under `FE_DOWNWARD`, `FE_UPWARD` and
`FE_TONEAREST`, /repo/intvalpy/kernel/interval_arithmetics.pyx:30-50.  Arbitrary functions with the
IEEE properties used by the code; zero and one are representable. -/
structure Rnd (K : Type*) [Field K] [LinearOrder K] where
  dn : K → K
  up : K → K
  nr : K → K
  dn_le : ∀ x, dn x ≤ x
  le_up : ∀ x, x ≤ up x
  dn_mono : Monotone dn
  up_mono : Monotone up
  dn_le_nr : ∀ x, dn x ≤ nr x
  nr_le_up : ∀ x, nr x ≤ up x
  dn_zero : dn 0 = 0
  up_zero : up 0 = 0

namespace Rnd
variable {K : Type*} [Field K] [LinearOrder K]

/-- Exact arithmetic: nothing is rounded (no counterpart in the code; the ideal the documentation
describes). -/
@[simps] def exact : Rnd K where
  dn := id
  up := id
  nr := id
  dn_le _ := le_refl _
  le_up _ := le_refl _
  dn_mono := monotone_id
  up_mono := monotone_id
  dn_le_nr _ := le_refl _
  nr_le_up _ := le_refl _
  dn_zero := rfl
  up_zero := rfl

end Rnd

end IntvalPy
