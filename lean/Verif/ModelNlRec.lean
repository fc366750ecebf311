/-
Model of /repo/intvalpy/nonlinear/solution_existence.py and /repo/intvalpy/nonlinear/recognizing_functional.py.
Both modules import names that the package no longer has (`intvalpy.utils`, `intvalpy.RealInterval`,
`intvalpy.ralgb5`), so that importing them raises; the model is of the text of their functions, with the names bound to
the functions of the present package (`zeros`, `Interval`, `ralgb5`).
-/
import Verif.ModelRecFun

set_option autoImplicit false

namespace IntvalPy

variable {K : Type*} [Field K] [LinearOrder K]

/-! ## miranda -/

/-- `l(i)` for `c = x[i].a` and `u(i)` for `c = x[i].b`,
/repo/intvalpy/nonlinear/solution_existence.py:7-23; a number stored in an interval array becomes the classical
interval `[c, c]`, /repo/intvalpy/kernel/real_intervals.py:226-227. -/
def mirandaFace {n : ℕ} (x : Fin n → Iv K) (i : Fin n) (c : K) : Fin n → Iv K := fun k =>
  if k = i then ⟨.classical, c, c⟩ else x k

/-- `p(func(l(k))[k]) and q(func(u(k))[k])`: the second call is made only when the first condition holds,
/repo/intvalpy/nonlinear/solution_existence.py:26-27. -/
def mirandaHalf {n : ℕ} (func : (Fin n → Iv K) → Except Err (Fin n → Iv K)) (x : Fin n → Iv K) (k : Fin n)
    (p q : Iv K → Bool) : Except Err Bool :=
  match func (mirandaFace x k (x k).a) with
  | .error e => .error e
  | .ok L =>
      if p (L k) then
        match func (mirandaFace x k (x k).b) with
        | .error e => .error e
        | .ok U => .ok (q (U k))
      else .ok false

/-- The condition of the `if`, with the short-circuit of `or`,
/repo/intvalpy/nonlinear/solution_existence.py:26-27. -/
def mirandaRow {n : ℕ} (func : (Fin n → Iv K) → Except Err (Fin n → Iv K)) (x : Fin n → Iv K) (k : Fin n) :
    Except Err Bool :=
  match mirandaHalf func x k (fun Y => decide (Y.b ≤ 0)) (fun Y => decide (0 ≤ Y.a)) with
  | .error e => .error e
  | .ok true => .ok true
  | .ok false => mirandaHalf func x k (fun Y => decide (0 ≤ Y.a)) (fun Y => decide (Y.b ≤ 0))

/-- The loop of lines 25-31. -/
def mirandaLoop {n : ℕ} (func : (Fin n → Iv K) → Except Err (Fin n → Iv K)) (x : Fin n → Iv K) :
    List (Fin n) → Except Err Bool
  | [] => .ok true
  | k :: ks =>
      match mirandaRow func x k with
      | .error e => .error e
      | .ok true => mirandaLoop func x ks
      | .ok false => .ok false

/-- `miranda(func, x)`, /repo/intvalpy/nonlinear/solution_existence.py:4-31. -/
def miranda {n : ℕ} (func : (Fin n → Iv K) → Except Err (Fin n → Iv K)) (x : Fin n → Iv K) : Except Err Bool :=
  mirandaLoop func x (List.finRange n)

/-! ## The recognizing functionals of a nonlinear model -/

/-- `weight * (b.rad - (b.mid - model(a, x)).mag)`, one row,
/repo/intvalpy/nonlinear/recognizing_functional.py:155-158; `Z` is the row of `model(a, x)`. -/
def nlTolConstituent (R : Rnd K) (Z b : Iv K) (w : K) : K :=
  R.nr (w * R.nr (b.rad R - (Iv.ufuncSub R (b.mid R) Z).mag))

/-- `Tol._value`, /repo/intvalpy/nonlinear/recognizing_functional.py:162-163. -/
def nlTolValue (R : Rnd K) {m : ℕ} (Z b : Fin m → Iv K) (w : Fin m → K) : Except Err K :=
  npAmin (List.ofFn fun i => nlTolConstituent R (Z i) (b i) (w i))

/-- `weight * (b.rad - (b.mid - model(a, x)).mig)`, one row,
/repo/intvalpy/nonlinear/recognizing_functional.py:208-211. -/
def nlUniConstituent (R : Rnd K) (Z b : Iv K) (w : K) : K :=
  R.nr (w * R.nr (b.rad R - (Iv.ufuncSub R (b.mid R) Z).mig))

/-- `Uni._value`, /repo/intvalpy/nonlinear/recognizing_functional.py:215-216. -/
def nlUniValue (R : Rnd K) {m : ℕ} (Z b : Fin m → Iv K) (w : Fin m → K) : Except Err K :=
  npAmin (List.ofFn fun i => nlUniConstituent R (Z i) (b i) (w i))

/-- The arguments of `calcfg`: `mdl x i` is the row `i` of `model(a, x)` and `g j x i` is `grad[j](a[i], x)`. -/
structure NlData (K : Type*) (m p : ℕ) where
  mdl : (Fin p → K) → Fin m → Iv K
  g : Fin p → (Fin p → K) → Fin m → Iv K
  bm : Fin m → K
  br : Fin m → K
  weight : Fin m → K

/-- `infsup = bm - model(a, x)`, /repo/intvalpy/nonlinear/recognizing_functional.py:168 and 221, exact arithmetic. -/
def NlData.infsup {m p : ℕ} (d : NlData K m p) (x : Fin p → K) (i : Fin m) : Iv K :=
  ⟨(d.mdl x i).cls, d.bm i - (d.mdl x i).b, d.bm i - (d.mdl x i).a⟩

/-- `Tol.calcfg`, /repo/intvalpy/nonlinear/recognizing_functional.py:167-177, exact arithmetic. -/
def nlTolCalcfg {m p : ℕ} (d : NlData K m p) (x : Fin p → K) : Except Err (K × (Fin p → K)) :=
  let tol : Fin m → K := fun i => d.weight i * (d.br i - (d.infsup x i).mag)
  match npArgmin tol with
  | .error e => .error e
  | .ok mc =>
      .ok (-tol mc, fun j =>
        if -(d.infsup x mc).a ≤ (d.infsup x mc).b then -(d.weight mc * min (d.g j x mc).a (d.g j x mc).b)
        else -(-d.weight mc * max (d.g j x mc).a (d.g j x mc).b))

/-- `Uni.calcfg`, /repo/intvalpy/nonlinear/recognizing_functional.py:220-230, exact arithmetic. -/
def nlUniCalcfg {m p : ℕ} (d : NlData K m p) (x : Fin p → K) : Except Err (K × (Fin p → K)) :=
  let uni : Fin m → K := fun i => d.weight i * (d.br i - (d.infsup x i).mig)
  match npArgmin uni with
  | .error e => .error e
  | .ok mc =>
      .ok (-uni mc, fun j =>
        if -(d.infsup x mc).a ≤ (d.infsup x mc).b then -(d.weight mc * max (d.g j x mc).a (d.g j x mc).b)
        else -(-d.weight mc * min (d.g j x mc).a (d.g j x mc).b))

/-- The objective where it does not raise. -/
def nlTotal {p : ℕ} (obj : (Fin p → K) → Except Err (K × (Fin p → K))) (x : Fin p → K) : K × (Fin p → K) :=
  match obj x with
  | .ok r => r
  | .error _ => (0, fun _ => 0)

/-- The objective chosen by `optimize`, /repo/intvalpy/nonlinear/recognizing_functional.py:45-48, 180-184, 233-237; `con` are the
rows and the factor of the linear constraint. -/
def nlObjective {p : ℕ} (calcfg : (Fin p → K) → Except Err (K × (Fin p → K))) (con : Option (Rows K p × K))
    (x : Fin p → K) : Except Err (K × (Fin p → K)) :=
  match con with
  | none => calcfg x
  | some c => calcfgConstr calcfg c.1 c.2 x

/-- `maximize` of both functionals, /repo/intvalpy/nonlinear/recognizing_functional.py:32-53, 187-198, 240-251: `ralgb5` from
the given point, the value with the opposite sign.  For a system without rows the first evaluation raises. -/
def nlMaximize {p : ℕ} (calcfg : (Fin p → K) → Except Err (K × (Fin p → K))) (P : RalgPar K p) (big : K)
    (con : Option (Rows K p × K)) (x0 : Fin p → K) : Except Err (RalgOut K p) :=
  match nlObjective calcfg con x0 with
  | .error e => .error e
  | .ok _ =>
      let o := ralgb5 P big (nlTotal (nlObjective calcfg con)) x0
      .ok { o with fr := -o.fr }

end IntvalPy
