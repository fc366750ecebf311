import Verif.Force
import Verif.ModelRecFun
import Mathlib.Data.Fin.VecNotation
import Mathlib.Tactic.FinCases

/-!
# The documented results of `maximize`

The documentation prints what `maximize` returned for the system of Barth and Nuding: the point, the value, the
number of iterations, the number of calls of the objective and the exit code,
/repo/doc/src/data_fitting.rst:134-141 and 277-284.  Here the model of `ralgb5` is run on the same system and gives
the same five values, although it computes with fractions and the code with doubles.  The square root is computed to
eighty binary digits.  Nothing is claimed about the code by these checks; they are evidence that the model follows
the code.  `ralgS_eq` shows that the strict evaluation changes nothing.
-/

set_option autoImplicit false

namespace IntvalPy
namespace RunsRalg
open RunsOpt

variable {n : ℕ}

/-- Apply `k` to the evaluated state. -/
def forceSt {α : Type} (s : RalgSt ℚ n) (k : RalgSt ℚ n → α) : α :=
  forceQ s.hs fun hs => forceRows n n s.B fun B => forceList s.vf fun vf => forceVec n s.x fun x =>
  forceVec n s.xr fun xr => forceQ s.fr fun fr => forceVec n s.g0 fun g0 => forceNat s.nit fun nit =>
  forceNat s.ncalls fun nc => k ⟨hs, B, vf, x, xr, fr, g0, nit, nc, s.evals⟩

theorem forceSt_eq {α : Type} (s : RalgSt ℚ n) (k : RalgSt ℚ n → α) : forceSt s k = k s := by
  simp [forceSt, forceQ_eq, forceRows_eq, forceList_eq, forceVec_eq, forceNat_eq]

/-- `lineSearch` with strict evaluation. -/
def lineS (P : RalgPar ℚ n) (calcfg : (Fin n → ℚ) → ℚ × (Fin n → ℚ)) (dx : Fin n → ℚ) (normdx : ℚ) :
    ℕ → ℕ → ℚ → (Fin n → ℚ) → ℚ → RalgSt ℚ n → Line ℚ n
  | 0, cal, deltax, g1, _, s => .done s g1 deltax cal
  | fuel + 1, cal, deltax, g1, d, s =>
      if 0 < d then
        forceVec n (fun i => s.x i - s.hs * dx i) fun x =>
        forceQ (deltax + s.hs * normdx) fun deltax =>
        forceQ (calcfg x).1 fun f => forceVec n (calcfg x).2 fun g =>
        let s : RalgSt ℚ n := { s with x := x, ncalls := s.ncalls + 1, evals := s.evals ++ [x] }
        let s : RalgSt ℚ n := if f < s.fr then { s with fr := f, xr := x } else s
        if P.norm g < P.tolg then .ret (s.out 2)
        else
          let s : RalgSt ℚ n := if cal % P.nh = 0 then { s with hs := s.hs * P.q2 } else s
          forceSt s fun s => forceNat (cal + 1) fun cal => forceQ (dotF dx g) fun d =>
          lineS P calcfg dx normdx fuel cal deltax g d s
      else .done s g1 deltax cal

theorem lineS_eq (P : RalgPar ℚ n) (calcfg : (Fin n → ℚ) → ℚ × (Fin n → ℚ)) (dx : Fin n → ℚ) (normdx : ℚ)
    (fuel cal : ℕ) (deltax : ℚ) (g1 : Fin n → ℚ) (d : ℚ) (s : RalgSt ℚ n) :
    lineS P calcfg dx normdx fuel cal deltax g1 d s = lineSearch P calcfg dx normdx fuel cal deltax g1 d s := by
  induction fuel generalizing cal deltax g1 d s with
  | zero => rfl
  | succ k ih => simp only [lineS, lineSearch, forceVec_eq, forceQ_eq, forceSt_eq, forceNat_eq, ih]

/-- `ralgLoop` with strict evaluation. -/
def ralgS (P : RalgPar ℚ n) (calcfg : (Fin n → ℚ) → ℚ × (Fin n → ℚ)) : ℕ → RalgSt ℚ n → RalgOut ℚ n
  | 0, s => s.out 4
  | k + 1, s =>
      let vf := s.vf.set (P.nsims - 1) s.fr
      let s : RalgSt ℚ n := { s with vf := vf }
      forceVec n (matTVec s.B s.g0) fun g1 =>
      forceVec n (P.normalize g1) fun u => forceVec n (matVecF s.B u) fun dx =>
      forceQ (P.norm dx) fun normdx =>
      match lineS P calcfg dx normdx 501 0 0 g1 1 s with
      | .ret o => o
      | .done s g1 deltax cal =>
          if 500 < cal then s.out 5
          else
            let s : RalgSt ℚ n := if cal = 1 then { s with hs := s.hs * P.q1 } else s
            if deltax < P.tolx then s.out 3
            else
              forceVec n (matTVec s.B fun i => g1 i - s.g0 i) fun dg =>
              forceVec n (P.normalize dg) fun xi => forceVec n (matVecF s.B xi) fun Bxi =>
              let w := 1 / P.alpha - 1
              let s : RalgSt ℚ n := { s with
                B := fun i j => s.B i j + w * (Bxi i * xi j)
                g0 := g1 }
              let vf := npRoll s.vf
              let vf := vf.set 0 |s.fr - vf.headD 0|
              let s : RalgSt ℚ n := { s with vf := vf }
              let deltaf := if 1 < |s.fr| then vf.sum / |s.fr| else vf.sum
              if deltaf < P.tolf then s.out 1
              else forceSt { s with nit := s.nit + 1 } fun s => ralgS P calcfg k s

theorem ralgS_eq (P : RalgPar ℚ n) (calcfg : (Fin n → ℚ) → ℚ × (Fin n → ℚ)) (k : ℕ) (s : RalgSt ℚ n) :
    ralgS P calcfg k s = ralgLoop P calcfg k s := by
  induction k generalizing s with
  | zero => rfl
  | succ k ih =>
      simp only [ralgS, ralgLoop, forceVec_eq, forceQ_eq, forceSt_eq, lineS_eq, ih]
      generalize lineSearch P calcfg _ _ 501 0 0 _ 1 _ = r
      cases r <;> rfl

/-- The whole part of the square root of `v`, by Newton's iteration from above. -/
def newton : ℕ → ℕ → ℕ → ℕ
  | 0, _, r => r
  | k + 1, v, r => forceNat ((r + v / r) / 2) fun y => if r ≤ y then r else newton k v y

/-- `np.linalg.norm` to eighty binary digits. -/
def norm (v : Fin n → ℚ) : ℚ :=
  forceNat (dotF v v * 2 ^ 160).floor.toNat fun s => forceNat (newton 200 s (2 ^ (s.log2 / 2 + 1))) fun r =>
    (r : ℚ) / 2 ^ 80

/-- `v / np.linalg.norm(v)` to eighty binary digits. -/
def normalize (v : Fin n → ℚ) : Fin n → ℚ := fun i => ((v i * 2 ^ 80 / norm v).floor : ℚ) / 2 ^ 80

/-- The default parameters, /repo/intvalpy/kernel/ralgb5.py:3. -/
def par : RalgPar ℚ n where
  tolx := 1 / 10 ^ 12
  tolg := 1 / 10 ^ 12
  tolf := 1 / 10 ^ 12
  maxiter := 2000
  alpha := 23 / 10
  nsims := 30
  h0 := 1
  nh := 3
  q1 := 9 / 10
  q2 := 11 / 10
  norm := norm
  normalize := normalize

/-- A classical interval. -/
def c (a b : ℚ) : Iv ℚ := ⟨.classical, a, b⟩

/-- The system, /repo/doc/src/data_fitting.rst:134-138. -/
def sys : RecData ℚ 2 2 :=
  recData ![![c 2 4, c (-1) 2], ![c (-2) 1, c 2 4]] ![c (-2) 2, c (-2) 2] fun _ => 1

/-- The five printed values. -/
def shown (r : Except Err (RalgOut ℚ 2)) : Option (ℚ × ℚ × ℚ × ℕ × ℕ × ℕ) :=
  r.toOption.map fun o => (o.xr 0, o.xr 1, o.fr, o.nit, o.ncalls, o.ccode)

/-- The run with strict evaluation; the number `10 ^ 9` stands for the infinite entries of `vf`. -/
def runS (F : RecFun) : ℚ × ℚ × ℚ × ℕ × ℕ × ℕ :=
  let f := F.objTotal sys none
  let o := ralgS par f 2001 ⟨1, fun i j => if i = j then 1 else 0, List.replicate 30 (10 ^ 9), 0, 0, (f 0).1, (f 0).2,
    0, 1, [0]⟩
  (o.xr 0, o.xr 1, -o.fr, o.nit, o.ncalls, o.ccode)

/-- The run with strict evaluation is the run of the model. -/
theorem runS_eq (F : RecFun) (h : (F.objective sys none 0).toOption.isSome)
    (h' : ¬ (par (n := 2)).norm (F.objTotal sys none 0).2 < par (n := 2).tolg) :
    shown (F.maximize par (10 ^ 9) sys none 0) = some (runS F) := by
  unfold RecFun.maximize
  cases ho : F.objective sys none 0 with
  | error e => rw [ho] at h; simp [Except.toOption] at h
  | ok r => simp only [shown, runS, ralgb5, ralgS_eq, if_neg h', Except.toOption, Option.map_some]; rfl

/-- /repo/doc/src/data_fitting.rst:140-141: `(array([0., 0.]), 2.0, 29, 46, 1)`. -/
theorem tol_run : shown (RecFun.tol.maximize par (10 ^ 9) sys none 0) = some (0, 0, 2, 29, 46, 1) := by
  rw [runS_eq _ (by decide +kernel) (by decide +kernel)]; decide +kernel

/-- /repo/doc/src/data_fitting.rst:283-284: `(array([0., 0.]), 2.0, 29, 45, 1)`. -/
theorem uni_run : shown (RecFun.uni.maximize par (10 ^ 9) sys none 0) = some (0, 0, 2, 29, 45, 1) := by
  rw [runS_eq _ (by decide +kernel) (by decide +kernel)]; decide +kernel

end RunsRalg
end IntvalPy
