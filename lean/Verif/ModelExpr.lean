import Verif.ModelKernel

/-!
# Expressions over intervals

Models a user function such as `lambda x: x[0]**2 + 3*x[1] - 1/x[0]` evaluated on interval arguments
(README.md, examples/global_optimization.py:12-15): every node is one call of an operator of
/repo/intvalpy/kernel/interval_arithmetics.pyx:391-526.  Nodes with a plain number on one side use
the number branches of the operators; subexpressions made of numbers only are folded into one constant.
-/

set_option autoImplicit false

namespace IntvalPy

/-- Arithmetic expressions as Python evaluates them on interval objects. -/
inductive Expr (K : Type*)
  | var (i : ℕ)
  | neg (e : Expr K)
  | add (e f : Expr K)
  | sub (e f : Expr K)
  | mul (e f : Expr K)
  | div (e f : Expr K)
  | pow (e : Expr K) (n : ℕ)
  | numAdd (c : K) (e : Expr K)
  | numSub (c : K) (e : Expr K)
  | numMul (c : K) (e : Expr K)
  | numDiv (c : K) (e : Expr K)
  | subNum (e : Expr K) (c : K)
  | divNum (e : Expr K) (c : K)

namespace Expr
variable {K : Type*} [Field K] [LinearOrder K]

/-- Evaluation on interval arguments: one operator call per node, exceptions propagate
(/repo/intvalpy/kernel/interval_arithmetics.pyx:193-194,391-526). -/
def evalIv (R : Rnd K) (X : ℕ → Iv K) : Expr K → Except Err (Iv K)
  | var i => .ok (X i)
  | neg e => do let x ← e.evalIv R X; return x.neg
  | add e f => do let x ← e.evalIv R X; let y ← f.evalIv R X; return x.add R y
  | sub e f => do let x ← e.evalIv R X; let y ← f.evalIv R X; return x.sub R y
  | mul e f => do let x ← e.evalIv R X; let y ← f.evalIv R X; return x.mul R y
  | div e f => do let x ← e.evalIv R X; let y ← f.evalIv R X; x.div R y
  | pow e n => do let x ← e.evalIv R X; return x.powNat R n
  | numAdd c e => do let x ← e.evalIv R X; return Iv.radd R c x
  | numSub c e => do let x ← e.evalIv R X; return Iv.rsub R c x
  | numMul c e => do let x ← e.evalIv R X; return Iv.rmul R c x
  | numDiv c e => do let x ← e.evalIv R X; Iv.rdiv R c x
  | subNum e c => do let x ← e.evalIv R X; return Iv.subNum R x c
  | divNum e c => do let x ← e.evalIv R X; Iv.divNum R x c

end Expr
end IntvalPy
