import Verif.ModelElem
import Verif.PropsFloatEnc
import Mathlib.Analysis.SpecialFunctions.Log.Basic
import Mathlib.Analysis.SpecialFunctions.Trigonometric.Basic

/-!
# What is assumed about the functions of the Python module `math`

These are statements about the external library, not about the code under study; every theorem that uses one
lists it as a hypothesis, and `PropsElem` shows that they can be met.
-/

set_option autoImplicit false

namespace IntvalPy

/-- `math.exp`: for a finite argument a double whose two neighbours bracket the exact value, or
`OverflowError` (only for arguments above 400; the real threshold is about 709.78); the limits at the
infinities. -/
structure ExpOK (f : Mode → Num → Except Err Num) : Prop where
  fin : ∀ (m : Mode) (n : Num) (q : ℚ), n.IntsLe (2 ^ 53) → n.val = .fin q →
    (∃ y : ℚ, f m n = .ok (.dbl (.fin y)) ∧ (nextDown (.fin y)).Lower (Real.exp q) ∧
      (nextUp (.fin y)).Upper (Real.exp q)) ∨
    (f m n = .error .overflowError ∧ 400 < q)
  ninf : ∀ m, f m (.dbl .ninf) = .ok (.dbl (.fin 0))
  pinf : ∀ m, f m (.dbl .pinf) = .ok (.dbl .pinf)
  nan : ∀ m, f m (.dbl .nan) = .ok (.dbl .nan)

/-- `math.log`: under the directed modes the result of a positive argument lies on the requested side of
the exact value and within one of it; `log(inf) = inf`. -/
structure LogOK (f : Mode → Num → Except Err Num) : Prop where
  down : ∀ (n : Num) (q : ℚ), n.IntsLe (2 ^ 53) → n.val = .fin q → 0 < q →
    ∃ y : ℚ, f .down n = .ok (.dbl (.fin y)) ∧ (y : ℝ) ≤ Real.log q ∧ Real.log q - 1 ≤ y
  up : ∀ (n : Num) (q : ℚ), n.IntsLe (2 ^ 53) → n.val = .fin q → 0 < q →
    ∃ y : ℚ, f .up n = .ok (.dbl (.fin y)) ∧ Real.log q ≤ y ∧ (y : ℝ) ≤ Real.log q + 1
  pinf : ∀ m, f m (.dbl .pinf) = .ok (.dbl .pinf)

/-- `math.sin` and `math.cos`: a double in `[-1, 1]` whose two neighbours bracket the exact value, in every
mode. -/
def TrigOK (f : Mode → Num → Except Err Num) (F : ℝ → ℝ) : Prop :=
  ∀ (m : Mode) (n : Num) (q : ℚ), n.IntsLe (2 ^ 53) → n.val = .fin q →
    ∃ y : ℚ, f m n = .ok (.dbl (.fin y)) ∧ IsF y ∧ |y| ≤ 1 ∧ (nextDown (.fin y)).Lower (F q) ∧
      (nextUp (.fin y)).Upper (F q)

/-- A Python `float` that is a finite double, or an `int` of at most 53 bits. -/
def Num.IsFinite (n : Num) : Prop :=
  n.IntsLe (2 ^ 52) ∧ ∃ q, n.val = .fin q ∧ IsF q ∧ |q| ≤ maxFin

end IntvalPy
