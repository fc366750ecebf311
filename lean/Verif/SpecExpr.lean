import Verif.ModelExpr

/-!
# Specification: the mathematical value of an expression at a point
-/

set_option autoImplicit false

namespace IntvalPy.Expr
variable {K : Type*} [Field K] [DecidableEq K]

/-- The exact value of the expression at the point `p`; `none` when a division by zero occurs. -/
def evalPt (p : ℕ → K) : Expr K → Option K
  | var i => some (p i)
  | neg e => (e.evalPt p).map (fun x => -x)
  | add e f => do let x ← e.evalPt p; let y ← f.evalPt p; return x + y
  | sub e f => do let x ← e.evalPt p; let y ← f.evalPt p; return x - y
  | mul e f => do let x ← e.evalPt p; let y ← f.evalPt p; return x * y
  | div e f => do
      let x ← e.evalPt p; let y ← f.evalPt p
      if y = 0 then none else return x / y
  | pow e n => (e.evalPt p).map (fun x => x ^ n)
  | numAdd c e => (e.evalPt p).map (fun x => c + x)
  | numSub c e => (e.evalPt p).map (fun x => c - x)
  | numMul c e => (e.evalPt p).map (fun x => c * x)
  | numDiv c e => do let x ← e.evalPt p; if x = 0 then none else return c / x
  | subNum e c => (e.evalPt p).map (fun x => x - c)
  | divNum e c => do let x ← e.evalPt p; if c = 0 then none else return x / c

/-- All plain-number divisors occurring in the expression have a reciprocal satisfying `P`. -/
def DivisorsOk (P : K → Prop) : Expr K → Prop
  | var _ => True
  | neg e | pow e _ | numAdd _ e | numSub _ e | numMul _ e | numDiv _ e | subNum e _ => e.DivisorsOk P
  | add e f | sub e f | mul e f | div e f => e.DivisorsOk P ∧ f.DivisorsOk P
  | divNum e c => e.DivisorsOk P ∧ P (1 / c)

end IntvalPy.Expr
