import Verif.ModelElem
import Verif.ModelPrint
import Verif.ModelUtils
import Verif.ModelConstruct
import Verif.ModelInter

/-!
# Recorded runs of the library and how the model is compared with them

/repo/test/unittests_ITF1788/*.py hold single assertions `self.assertEqual(expression, expected)`;
/repo/test/unittests_ITF1788/test_results.txt records for each of them that it passed, the value that was shown when it
failed, or the exception.
-/

set_option autoImplicit false

namespace IntvalPy

/-- `__neg__`, /repo/intvalpy/kernel/interval_arithmetics.pyx:193-194. -/
def FIv.negN (x : FIv) : FIv := ⟨x.cls, x.b.neg, x.a.neg⟩

/-- `__abs__`, /repo/intvalpy/kernel/interval_arithmetics.pyx:196-197. -/
def FIv.absN (x : FIv) : Except Err FIv :=
  match x.migN, x.magN with
  | .error e, _ => .error e
  | _, .error e => .error e
  | .ok p, .ok q => .ok ⟨x.cls, p, q⟩

/-- `x == y` of two Python numbers; false when one of them is NaN. -/
def Num.eqN (x y : Num) : Bool := x.le y && y.le x

/-- `__eq__` of two intervals, /repo/intvalpy/kernel/interval_arithmetics.pyx:223-229. -/
def FIv.eqN (x y : FIv) : Bool := x.a.eqN y.a && x.b.eqN y.b

namespace Runs

/-- The float `m / 2^k`. -/
def bin (m : ℤ) (k : ℕ) : Dbl := .fin (mkRat m (2 ^ k))

/-- The float `m * 2^k`. -/
def whole (m : ℤ) (k : ℕ) : Dbl := .fin (m * 2 ^ k : ℤ)

/-- The decimal number `m / 10^k` shown in a message. -/
def dec (m : ℤ) (k : ℕ) : Dbl := .fin (mkRat m (10 ^ k))

/-- A table of values of a function. -/
abbrev Table := List (Dbl × Except Err Dbl)

/-- The two arguments of `Interval(l, r)` in a test. -/
abbrev Ends := Dbl × Dbl

/-- The expression on the left of an assertion. -/
inductive Call
  | add (X Y : Ends)
  | sub (X Y : Ends)
  | mul (X Y : Ends)
  | div (X Y : Ends)
  | neg (X : Ends)
  | abs (X : Ends)
  | exp (X : Ends)
  | log (X : Ends)
  | sqrt (X : Ends)
  | sin (X : Ends)
  | cos (X : Ends)
  | endA (X : Ends)
  | endB (X : Ends)
  | wid (X : Ends)
  | rad (X : Ends)
  | mid (X : Ends)
  | mag (X : Ends)
  | mig (X : Ends)
  | inter (X Y : Ends)

/-- The value on the right of an assertion. -/
inductive Wanted
  | iv (X : Ends)
  | num (d : Dbl)

/-- What test_results.txt says about an assertion: it passed, it failed with an interval shown as `'[p, q]'`, it failed
with a number (shown exactly), it raised. -/
inductive Recorded
  | ok
  | got (p q : Dbl)
  | gotNum (d : Dbl)
  | raised (e : Err)

/-- One test: its line in the file, the assertion and the record. -/
structure Run where
  line : ℕ
  call : Call
  wanted : Wanted
  recorded : Recorded

/-- A value of an expression: an interval or a number. -/
inductive Value
  | iv (X : FIv)
  | num (x : Num)

/-- `Interval(l, r)` with two floats. -/
def interval (X : Ends) : Except Err FIv := fSingle .nearest (.dbl X.1) (.dbl X.2) true false

/-- A unary operation on intervals. -/
def on1 (f : FIv → Except Err Value) (X : Ends) : Except Err Value := (interval X).bind f

/-- A binary operation on intervals in the mode to nearest, in which a test is run. -/
def on2 (f : FIv → FIv → M FIv) (X Y : Ends) : Except Err Value :=
  (interval X).bind fun x => (interval Y).bind fun y => ((f x y) .nearest).1.map .iv

/-- The value of the expression of a test. -/
def Call.eval (lm : Libm) : Call → Except Err Value
  | .add X Y => on2 FIv.add X Y
  | .sub X Y => on2 FIv.sub X Y
  | .mul X Y => on2 FIv.mul X Y
  | .div X Y => on2 FIv.div X Y
  | .neg X => on1 (fun x => .ok (.iv x.negN)) X
  | .abs X => on1 (fun x => x.absN.map .iv) X
  | .exp X => on1 (fun x => ((FIv.exp lm x) .nearest).1.map .iv) X
  | .log X => on1 (fun x => ((FIv.log lm.log x) .nearest).1.map .iv) X
  | .sqrt X => on1 (fun x => ((FIv.sqrt lm x) .nearest).1.map .iv) X
  | .sin X => on1 (fun x => ((FIv.sin lm x) .nearest).1.map .iv) X
  | .cos X => on1 (fun x => ((FIv.cos lm x) .nearest).1.map .iv) X
  | .endA X => on1 (fun x => .ok (.num x.a)) X
  | .endB X => on1 (fun x => .ok (.num x.b)) X
  | .wid X => on1 (fun x => (x.widN .nearest).map .num) X
  | .rad X => on1 (fun x => (x.radN .nearest).map .num) X
  | .mid X => on1 (fun x => (x.midN .nearest).map .num) X
  | .mag X => on1 (fun x => x.magN.map .num) X
  | .mig X => on1 (fun x => x.migN.map .num) X
  | .inter X Y => on2 FIv.intersect X Y

/-- Python `==` between the computed and the expected value. -/
def Value.equals : Value → Wanted → Bool
  | .iv X, .iv W => match interval W with
      | .ok Y => X.eqN Y
      | .error _ => false
  | .num x, .num d => x.eqN (.dbl d)
  | _, _ => false

/-- The model says the same about a test as the record. -/
def Run.agrees (lm : Libm) (r : Run) : Bool :=
  match r.call.eval lm, r.recorded with
  | .ok v, .ok => v.equals r.wanted
  | .ok (.iv X), .got p q => !(Value.iv X).equals r.wanted && decide (X.repr = .ok (p, q))
  | .ok (.num x), .gotNum d => !(Value.num x).equals r.wanted && decide (x = .dbl d)
  | .error e, .raised e' => decide (e = e')
  | _, _ => false

/-- A function of `math` given by a table for finite arguments and by its values at the infinities; arguments that are
not in the table raise an exception that no test records. -/
def tableFn (t : Table) (atPinf atNinf : Except Err Dbl) (x : Num) : Except Err Num :=
  match x.toDbl with
  | .error e => .error e
  | .ok .nan => .ok (.dbl .nan)
  | .ok .pinf => atPinf.map .dbl
  | .ok .ninf => atNinf.map .dbl
  | .ok (.fin q) => match t.find? (fun p => decide (p.1 = .fin q)) with
      | some p => p.2.map .dbl
      | none => .error .notImplementedError

/-- A C library whose functions are given by tables; `log` depends on the rounding mode. -/
def tableLibm (exp logDown logUp sin cos : Table) : Libm where
  exp := fun _ => tableFn exp (.ok .pinf) (.ok (.fin 0))
  log := fun m => tableFn (match m with | .down => logDown | _ => logUp) (.ok .pinf) (.error .valueError)
  sin := fun _ => tableFn sin (.error .valueError) (.error .valueError)
  cos := fun _ => tableFn cos (.error .valueError) (.error .valueError)

end Runs
end IntvalPy
