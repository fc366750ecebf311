import Verif.Force
import Verif.ModelPPS
import Verif.ModelArray
import Mathlib.Data.Fin.VecNotation
import Mathlib.LinearAlgebra.Matrix.NonsingularInverse

/-!
# The documented result of `PPS`

The documentation prints what `PPS` returned for the system `Neumeier(5, 10)`, /repo/doc/src/linear.rst:476-478.  Here the model of `PPS` is
run on the same system.  `HBR` and the interval inverse by `Gauss` are the models of these functions; `np.linalg.inv` and
`np.linalg.solve` are exact.  Nothing is claimed about the code by this check; it is evidence that the model follows the code.  The
functions whose names end in `S` evaluate strictly, and each is proved to change nothing.
-/

set_option autoImplicit false
set_option linter.unusedSectionVars false

namespace IntvalPy
namespace RunsPPS
open RunsOpt

section force
variable {α : Type}

/-- Apply `k` to the evaluated entries of an interval matrix. -/
def forceMat (n : ℕ) : (m : ℕ) → (Fin m → Fin n → Iv ℚ) → ((Fin m → Fin n → Iv ℚ) → α) → α
  | 0, M, k => k M
  | m + 1, M, k => forceBox n (M 0) fun v => forceMat n m (Fin.tail M) fun N => k (Fin.cons v N)

theorem forceMat_eq (n m : ℕ) (M : Fin m → Fin n → Iv ℚ) (k : (Fin m → Fin n → Iv ℚ) → α) : forceMat n m M k = k M := by
  induction m with
  | zero => rfl
  | succ m ih => simp [forceMat, forceBox_eq, ih, Fin.cons_self_tail]

/-- Apply `k` to the evaluated vectors, one of which may be an exception. -/
def forceCols (n : ℕ) : (m : ℕ) → (Fin m → Except Err (Fin n → Iv ℚ)) → ((Fin m → Except Err (Fin n → Iv ℚ)) → α) → α
  | 0, f, k => k f
  | m + 1, f, k =>
      match f 0 with
      | .error e => forceCols n m (Fin.tail f) fun g => k (Fin.cons (.error e) g)
      | .ok v => forceBox n v fun v => forceCols n m (Fin.tail f) fun g => k (Fin.cons (.ok v) g)

theorem forceCols_eq (n m : ℕ) (f : Fin m → Except Err (Fin n → Iv ℚ)) (k : (Fin m → Except Err (Fin n → Iv ℚ)) → α) :
    forceCols n m f k = k f := by
  induction m with
  | zero => rfl
  | succ m ih =>
      unfold forceCols
      cases h : f 0 with
      | error e => simp only [ih, ← h, Fin.cons_self_tail]
      | ok v => simp only [ih, forceBox_eq, ← h, Fin.cons_self_tail]

/-- Apply `k` to the evaluated integers. -/
def forceZ : (n : ℕ) → (Fin n → ℤ) → ((Fin n → ℤ) → α) → α
  | 0, v, k => k v
  | n + 1, v, k => forceInt (v 0) fun x => forceZ n (Fin.tail v) fun w => k (Fin.cons x w)

theorem forceZ_eq (n : ℕ) (v : Fin n → ℤ) (k : (Fin n → ℤ) → α) : forceZ n v k = k v := by
  induction n with
  | zero => rfl
  | succ n ih => simp [forceZ, forceInt_eq, ih, Fin.cons_self_tail]

/-- Apply `k` to the evaluated matrix of integers. -/
def forceZZ (n : ℕ) : (m : ℕ) → (Fin m → Fin n → ℤ) → ((Fin m → Fin n → ℤ) → α) → α
  | 0, M, k => k M
  | m + 1, M, k => forceZ n (M 0) fun v => forceZZ n m (Fin.tail M) fun N => k (Fin.cons v N)

theorem forceZZ_eq (n m : ℕ) (M : Fin m → Fin n → ℤ) (k : (Fin m → Fin n → ℤ) → α) : forceZZ n m M k = k M := by
  induction m with
  | zero => rfl
  | succ m ih => simp [forceZZ, forceZ_eq, ih, Fin.cons_self_tail]

variable {n : ℕ}

/-- Apply `k` to the evaluated tags. -/
def forceTags (g : PpsTags n) (k : PpsTags n → α) : α :=
  forceZZ n n g.W fun W => forceZ n g.s fun s => forceZ n g.t fun t => k ⟨W, s, t⟩

theorem forceTags_eq (g : PpsTags n) (k : PpsTags n → α) : forceTags g k = k g := by
  simp [forceTags, forceZZ_eq, forceZ_eq]

/-- Apply `k` to the evaluated list element. -/
def forceEl (e : PpsEl ℚ n) (k : PpsEl ℚ n → α) : α :=
  forceQ e.gamma fun g => forceMat n n e.Q fun Q => forceBox n e.r fun r => forceMat n n e.Y fun Y =>
  forceBox n e.x fun x => forceTags e.tags fun t => k ⟨g, Q, r, Y, x, t⟩

theorem forceEl_eq (e : PpsEl ℚ n) (k : PpsEl ℚ n → α) : forceEl e k = k e := by
  simp [forceEl, forceQ_eq, forceMat_eq, forceBox_eq, forceTags_eq]

/-- Apply `k` to the evaluated list. -/
def forceEls : List (PpsEl ℚ n) → (List (PpsEl ℚ n) → α) → α
  | [], k => k []
  | e :: l, k => forceEl e fun e => forceEls l fun l' => k (e :: l')

theorem forceEls_eq (l : List (PpsEl ℚ n)) (k : List (PpsEl ℚ n) → α) : forceEls l k = k l := by
  induction l generalizing k with
  | nil => rfl
  | cons e l ih => simp [forceEls, forceEl_eq, ih]

end force

variable {n : ℕ}

/-! ## `Gauss` and `HBR` -/

/-- `gaussForward` with strict evaluation. -/
def gaussForwardS (R : Rnd ℚ) : List (Fin n) → GaussSt ℚ n → Except Err (GaussSt ℚ n)
  | [], S => .ok S
  | j :: js, S =>
      match gaussStep R S j with
      | .error e => .error e
      | .ok S' => forceMat n n S'.A fun A => forceBox n S'.b fun b => gaussForwardS R js ⟨A, b⟩

theorem gaussForwardS_eq (R : Rnd ℚ) (js : List (Fin n)) (S : GaussSt ℚ n) : gaussForwardS R js S = gaussForward R js S := by
  induction js generalizing S with
  | nil => rfl
  | cons j js ih =>
      unfold gaussForwardS gaussForward
      cases gaussStep R S j with
      | error e => rfl
      | ok S' => simp only [forceMat_eq, forceBox_eq, ih]

/-- `gaussBack` with strict evaluation. -/
def gaussBackS (R : Rnd ℚ) (S : GaussSt ℚ n) : List (Fin n) → (Fin n → Iv ℚ) → Except Err (Fin n → Iv ℚ)
  | [], x => .ok x
  | i :: is, x =>
      match (subSum R (S.b i) (((List.finRange n).filter fun l => i ≤ l).map fun l =>
          (S.A i l).mul R (x l))).div R (S.A i i) with
      | .error e => .error e
      | .ok X => forceBox n (Function.update x i X) fun x => gaussBackS R S is x

theorem gaussBackS_eq (R : Rnd ℚ) (S : GaussSt ℚ n) (is : List (Fin n)) (x : Fin n → Iv ℚ) :
    gaussBackS R S is x = gaussBack R S is x := by
  induction is generalizing x with
  | nil => rfl
  | cons i is ih =>
      unfold gaussBackS gaussBack
      simp only [forceBox_eq, ih]
      cases (subSum R (S.b i) (((List.finRange n).filter fun l => i ≤ l).map fun l => (S.A i l).mul R (x l))).div R (S.A i i) <;> rfl

/-- `gauss` with strict evaluation. -/
def gaussS (R : Rnd ℚ) (A : Fin n → Fin n → Iv ℚ) (b : Fin n → Iv ℚ) : Except Err (Fin n → Iv ℚ) :=
  match gaussForwardS R ((List.finRange n).filter fun j => j.val + 1 < n) ⟨A, b⟩ with
  | .error e => .error e
  | .ok S => gaussBackS R S (List.finRange n).reverse fun _ => zeroIv

theorem gaussS_eq (R : Rnd ℚ) (A : Fin n → Fin n → Iv ℚ) (b : Fin n → Iv ℚ) : gaussS R A b = gauss R A b := by
  unfold gaussS gauss
  simp only [gaussForwardS_eq, gaussBackS_eq]
  cases gaussForward R ((List.finRange n).filter fun j => j.val + 1 < n) ⟨A, b⟩ <;> rfl

/-- `ppsInverse` with strict evaluation. -/
def inverseS (R : Rnd ℚ) (A : Fin n → Fin n → Iv ℚ) : Except Err (Fin n → Fin n → Iv ℚ) :=
  forceMat n n A fun A =>
  forceCols n n (fun k => gaussS R A fun i => if i = k then pointIv 1 else zeroIv) fun f =>
  match (List.finRange n).findSome? fun k => errVec (f k) with
  | some e => .error e
  | none => .ok fun i k => okVec (f k) i

theorem inverseS_eq (R : Rnd ℚ) : inverseS (n := n) R = ppsInverse R := by
  funext A
  simp only [inverseS, forceMat_eq, forceCols_eq, gaussS_eq]
  rfl

/-- `hbr` with strict evaluation. -/
def hbrS (R : Rnd ℚ) (inv : (Fin n → Fin n → ℚ) → Except Err (Fin n → Fin n → ℚ))
    (A : Fin n → Fin n → Iv ℚ) (b : Fin n → Iv ℚ) : Except Err (Fin n → Iv ℚ) :=
  forceMat n n A fun A => forceBox n b fun b =>
  match inv fun i j => (A i j).mid R with
  | .error e => .error e
  | .ok C =>
      forceMat n n ((Precond.point C).mulMat R A) fun A' =>
      forceBox n ((Precond.point C).mulVec R b) fun b' =>
      forceRows n n (compmat A') fun M =>
      match inv M with
      | .error e => .error e
      | .ok B =>
          forceVec n (fun i => |∑ j, B i j|) fun v =>
          forceVec n (fun i => ∑ j, M i j * v j) fun u =>
          if (List.finRange n).any fun i => decide (0 < u i) then
            forceVec n (fun j =>
              maxOf (List.ofFn fun i => -(∑ l, M i l * B l j - if i = j then 1 else 0) / u i)) fun w =>
            forceVec n (fun i => -(v i * w i - B i i)) fun dlow =>
            forceRows n n (fun i j => B i j + ∑ l, v l * w l) fun B' =>
            forceVec n (fun i => ∑ j, B' i j * (b' j).mag) fun u' =>
            if (List.finRange n).any fun i => decide (u i = 0 ∨ B' i i = 0 ∨ dlow i = 0) then
              .error .zeroDivisionError
            else
              forceVec n (fun i => M i i + -1 / B' i i) fun alpha =>
              forceVec n (fun i => u' i / dlow i - (b' i).mag) fun beta =>
              match allOk fun i => ((b' i).add R (mkSym (beta i))).div R ((A' i i).add R (mkSym (alpha i))) with
              | .error e => .error e
              | .ok X => forceBox n X fun X => .ok X
          else .error .assertionError

theorem hbrS_eq (R : Rnd ℚ) (inv : (Fin n → Fin n → ℚ) → Except Err (Fin n → Fin n → ℚ)) : hbrS R inv = hbr R inv := by
  funext A b
  simp only [hbrS, hbr, forceMat_eq, forceBox_eq, forceRows_eq, forceVec_eq]
  cases inv fun i j => (A i j).mid R with
  | error e => rfl
  | ok C =>
      dsimp only
      cases inv (compmat ((Precond.point C).mulMat R A)) with
      | error e => rfl
      | ok B =>
          dsimp only
          split_ifs
          · rfl
          · split <;> simp_all
          · rfl

/-! ## The exact inverse -/

/-- One step of the Gauss-Jordan elimination of `A X = B`, column `c`. -/
def jordanStep (c : Fin n) (A B : Fin n → Fin n → ℚ) : Option ((Fin n → Fin n → ℚ) × (Fin n → Fin n → ℚ)) :=
  match (List.finRange n).find? fun r => decide (c ≤ r ∧ A r c ≠ 0) with
  | none => none
  | some p =>
      forceRows n n (fun i => A (Equiv.swap c p i)) fun A => forceRows n n (fun i => B (Equiv.swap c p i)) fun B =>
      forceVec n (fun j => A c j / A c c) fun a => forceVec n (fun j => B c j / A c c) fun b =>
      forceRows n n (fun i j => if i = c then a j else A i j - A i c * a j) fun A' =>
      forceRows n n (fun i j => if i = c then b j else B i j - A i c * b j) fun B' => some (A', B')

/-- The elimination of the columns listed. -/
def jordan : List (Fin n) → (Fin n → Fin n → ℚ) → (Fin n → Fin n → ℚ) → Option (Fin n → Fin n → ℚ)
  | [], _, B => some B
  | c :: cs, A, B =>
      match jordanStep c A B with
      | none => none
      | some p => jordan cs p.1 p.2

/-- `np.linalg.inv`: a matrix found by elimination, returned only if it is the inverse. -/
def inv (M : Fin n → Fin n → ℚ) : Except Err (Fin n → Fin n → ℚ) :=
  forceRows n n M fun M =>
  match jordan (List.finRange n) M fun i j => if i = j then 1 else 0 with
  | none => .error .linAlgError
  | some N =>
      if ∀ i j, (∑ k, M i k * N k j) = if i = j then 1 else 0 then .ok N else .error .linAlgError

/-- `np.linalg.solve`. -/
def solve (M : Fin n → Fin n → ℚ) (y : Fin n → ℚ) : Except Err (Fin n → ℚ) :=
  match inv M with
  | .error e => .error e
  | .ok N => .ok fun i => ∑ j, N i j * y j

/-- What `inv` returns is the inverse. -/
theorem inv_exact (M N : Fin n → Fin n → ℚ) (h : inv M = .ok N) : Matrix.of M * Matrix.of N = 1 := by
  unfold inv at h
  rw [forceRows_eq] at h
  cases hj : jordan (List.finRange n) M fun i j => if i = j then 1 else 0 with
  | none => simp [hj] at h
  | some N' =>
      rw [hj] at h
      dsimp only at h
      split_ifs at h with h1
      cases h
      ext i j
      rw [Matrix.mul_apply, Matrix.one_apply]
      exact h1 i j

/-- What `solve` returns is the solution. -/
theorem solve_exact (M : Fin n → Fin n → ℚ) (x y : Fin n → ℚ) (h : solve M y = .ok x) : (Matrix.of M).mulVec x = y := by
  unfold solve at h
  cases hi : inv M with
  | error e => simp [hi] at h
  | ok N =>
      rw [hi] at h
      cases h
      change (Matrix.of M).mulVec ((Matrix.of N).mulVec y) = y
      rw [Matrix.mulVec_mulVec, inv_exact M N hi, Matrix.one_mulVec]

/-! ## The loop -/

/-- `PpsProp.run` with strict evaluation. -/
def runS : ℕ → PpsProp n → Option (PpsTags n)
  | 0, p => if p.wc || p.sc || p.tc then none else some p.tags
  | fuel + 1, p =>
      if p.wc || p.sc || p.tc then
        let q := p.pass
        forceTags q.tags fun t => forceSpine q.omegas fun o => forceSpine q.ks fun ks => forceSpine q.lambdas fun l =>
        runS fuel ⟨t, o, ks, l, q.wc, q.sc, q.tc⟩
      else some p.tags

theorem runS_eq (fuel : ℕ) (p : PpsProp n) : runS fuel p = p.run fuel := by
  induction fuel generalizing p with
  | zero => rfl
  | succ k ih => simp only [runS, PpsProp.run, forceTags_eq, forceSpine_eq, ih]

/-- `ppsSplit` with strict evaluation. -/
def splitS (P : PpsArg ℚ n) (l0 : PpsEl ℚ n) (omega : Option ℚ) (ind fl : Bool)
    (Q : Fin n → Fin n → Iv ℚ) (r : Fin n → Iv ℚ) (start : PpsProp n) (rest : List (PpsEl ℚ n)) :
    PpsRes (List (PpsEl ℚ n) × ℚ) :=
  forceMat n n Q fun Q => forceBox n r fun r =>
  match P.hbr Q r with
  | .error e => .error (some e)
  | .ok vx =>
      match P.solve (fun i j => (Q i j).mid P.R) (fun i => (r i).mid P.R) with
      | .error e => .error (some e)
      | .ok mn =>
          forceQ (mn P.nu) fun mnu =>
          if ltOmega (vx P.nu).a omega then
            match (if ind then runS P.fuel start else some start.tags) with
            | none => .error none
            | some tags =>
                match (if fl then P.inverse Q else .ok l0.Y) with
                | .error e => .error (some e)
                | .ok Y => forceEl ⟨(vx P.nu).a, Q, r, Y, vx, tags⟩ fun e => .ok (ppsInsert e l0 rest, mnu)
          else .ok (rest, mnu)

theorem splitS_eq (P : PpsArg ℚ n) (l0 : PpsEl ℚ n) (omega : Option ℚ) (ind fl : Bool)
    (Q : Fin n → Fin n → Iv ℚ) (r : Fin n → Iv ℚ) (start : PpsProp n) (rest : List (PpsEl ℚ n)) :
    splitS P l0 omega ind fl Q r start rest = ppsSplit P l0 omega ind fl Q r start rest := by
  simp only [splitS, ppsSplit, forceMat_eq, forceBox_eq, forceQ_eq, forceEl_eq, runS_eq]
  cases P.hbr Q r with
  | error e => rfl
  | ok vx =>
      dsimp only
      cases P.solve (fun i j => (Q i j).mid P.R) (fun i => (r i).mid P.R) with
      | error e => rfl
      | ok mn =>
          dsimp only
          congr 1
          cases (if ind then start.run P.fuel else some start.tags) with
          | none => rfl
          | some tags =>
              dsimp only
              cases (if fl then P.inverse Q else .ok l0.Y) <;> rfl

/-- `ppsTwo` with strict evaluation. -/
def twoS (P : PpsArg ℚ n) (l0 : PpsEl ℚ n) (omega : Option ℚ) (fl : Bool)
    (Q1 Q2 : Fin n → Fin n → Iv ℚ) (r1 r2 : Fin n → Iv ℚ) (st1 st2 : PpsProp n) (rest : List (PpsEl ℚ n)) :
    PpsRes (List (PpsEl ℚ n) × ℚ) :=
  match splitS P l0 omega true fl Q1 r1 st1 rest with
  | .error e => .error e
  | .ok p1 =>
      match splitS P l0 omega true fl Q2 r2 st2 p1.1 with
      | .error e => .error e
      | .ok p2 => .ok (p2.1, min p1.2 p2.2)

theorem twoS_eq (P : PpsArg ℚ n) (l0 : PpsEl ℚ n) (omega : Option ℚ) (fl : Bool)
    (Q1 Q2 : Fin n → Fin n → Iv ℚ) (r1 r2 : Fin n → Iv ℚ) (st1 st2 : PpsProp n) (rest : List (PpsEl ℚ n)) :
    twoS P l0 omega fl Q1 Q2 r1 r2 st1 st2 rest = ppsTwo P l0 omega fl Q1 Q2 r1 r2 st1 st2 rest := by
  simp only [twoS, ppsTwo, splitS_eq]
  cases ppsSplit P l0 omega true fl Q1 r1 st1 rest with
  | error e => rfl
  | ok p =>
      dsimp only
      cases ppsSplit P l0 omega true fl Q2 r2 st2 p.1 <;> rfl

/-- `ppsDescend` with strict evaluation. -/
def descendS (P : PpsArg ℚ n) (omega : Option ℚ) (l : PpsEl ℚ n) (big : Bool) (ij : Fin n × Fin n) (i2 : Fin n)
    (rest : List (PpsEl ℚ n)) : PpsRes (List (PpsEl ℚ n) × ℚ) :=
  if big then
    let lo := setEntry l.Q ij.1 ij.2 (pointIv (l.Q ij.1 ij.2).a)
    let hi := setEntry l.Q ij.1 ij.2 (pointIv (l.Q ij.1 ij.2).b)
    if l.tags.W ij.1 ij.2 = 0 then
      twoS P l omega true lo hi l.r l.r (startW l.tags ij.1 ij.2 1) (startW l.tags ij.1 ij.2 (-1)) rest
    else if l.tags.W ij.1 ij.2 = 1 then splitS P l omega false true lo l.r (startNone l.tags) rest
    else splitS P l omega false true hi l.r (startNone l.tags) rest
  else
    let lo := setComp l.r i2 (pointIv (l.r i2).a)
    let hi := setComp l.r i2 (pointIv (l.r i2).b)
    if l.tags.s i2 = 0 then
      twoS P l omega false l.Q l.Q lo hi (startS l.tags i2 (-1)) (startS l.tags i2 1) rest
    else if l.tags.s i2 = 1 then splitS P l omega false false l.Q hi (startNone l.tags) rest
    else splitS P l omega false false l.Q lo (startNone l.tags) rest

theorem descendS_eq (P : PpsArg ℚ n) (omega : Option ℚ) (l : PpsEl ℚ n) (big : Bool) (ij : Fin n × Fin n) (i2 : Fin n)
    (rest : List (PpsEl ℚ n)) : descendS P omega l big ij i2 rest = ppsDescend P omega l big ij i2 rest := by
  simp only [descendS, ppsDescend, twoS_eq, splitS_eq]

/-- `ppsBody` with strict evaluation. -/
def bodyS (P : PpsArg ℚ n) (omega : Option ℚ) (l : PpsEl ℚ n) (rest : List (PpsEl ℚ n)) :
    PpsRes (List (PpsEl ℚ n) × ℚ) :=
  forceMat n n (ppsD P l) fun d => forceEl (ppsMonotone P l) fun l1 =>
  forceRows n n (fun i j => ppsMat P d l1 (i, j)) fun mat => forceVec n (ppsVec P l1) fun vec =>
  match argmaxOn (fun ij => mat ij.1 ij.2) (allPairs n), argmaxOn vec (List.finRange n) with
  | some ij, some i2 =>
      forceTags (ppsRefine l1.tags ij.1 ij.2) fun t =>
      descendS P omega { l1 with tags := t } (decide (vec i2 < mat ij.1 ij.2)) ij i2 rest
  | _, _ => .error (some .valueError)

theorem bodyS_eq (P : PpsArg ℚ n) (omega : Option ℚ) (l : PpsEl ℚ n) (rest : List (PpsEl ℚ n)) :
    bodyS P omega l rest = ppsBody P omega l rest := by
  simp only [bodyS, ppsBody, forceMat_eq, forceEl_eq, forceRows_eq, forceVec_eq, forceTags_eq, descendS_eq, Prod.mk.eta]
  rfl

/-- `ppsLoop` with strict evaluation. -/
def loopS (P : PpsArg ℚ n) : ℕ → Option ℚ → Option ℚ → PpsEl ℚ n → List (PpsEl ℚ n) → PpsRes (ℚ × ℕ)
  | 0, _, ocenka, _, _ =>
      match ocenka with
      | none => .error (some .unboundLocalError)
      | some v => .ok (v, 0)
  | k + 1, omega, ocenka, l, rest =>
      if !(ppsExact P.R l.Q) && ppsFar P.tol l.gamma omega then
        match bodyS P omega l rest with
        | .error e => .error e
        | .ok p =>
            forceQ (ppsOmega p.2 omega) fun w =>
            forceEls (p.1.filter fun e => decide (e.gamma ≤ w)) fun L =>
            match L with
            | [] => .ok (w, k + 1)
            | l' :: rest' => loopS P k (some w) (some l'.gamma) l' rest'
      else
        match ocenka with
        | none => .error (some .unboundLocalError)
        | some v => .ok (v, k + 1)

theorem loopS_eq (P : PpsArg ℚ n) (k : ℕ) (omega ocenka : Option ℚ) (l : PpsEl ℚ n) (rest : List (PpsEl ℚ n)) :
    loopS P k omega ocenka l rest = ppsLoop P k omega ocenka l rest := by
  induction k generalizing omega ocenka l rest with
  | zero => cases ocenka <;> rfl
  | succ k ih =>
      simp only [loopS, ppsLoop, bodyS_eq, forceQ_eq, forceEls_eq, ih]
      congr 1
      · cases ppsBody P omega l rest with
        | error e => rfl
        | ok p =>
            dsimp only
            cases p.1.filter fun e => decide (e.gamma ≤ ppsOmega p.2 omega) <;> rfl
      · cases ocenka <;> rfl

/-- `algo(nu)` with strict evaluation. -/
def algoS (tol : ℚ) (fuel : ℕ) (nu : Fin n) (passes : ℕ) (A invA : Fin n → Fin n → Iv ℚ) (b : Fin n → Iv ℚ) : PpsRes (ℚ × ℕ) :=
  let P : PpsArg ℚ n := ⟨Rnd.exact, hbrS Rnd.exact inv, inverseS Rnd.exact, solve, nu, tol, fuel⟩
  match P.hbr A b with
  | .error e => .error (some e)
  | .ok vx => loopS P passes none none ⟨(vx nu).a, A, b, invA, vx, ⟨fun _ _ => 0, fun _ => 0, fun _ => 0⟩⟩ []

theorem algoS_eq (tol : ℚ) (fuel : ℕ) (nu : Fin n) (maxiter : ℤ) (A invA : Fin n → Fin n → Iv ℚ) (b : Fin n → Iv ℚ) :
    algoS tol fuel nu (maxiter + 1).toNat A invA b = ppsRun (ppsArg Rnd.exact inv solve tol fuel nu) maxiter A invA b := by
  simp only [algoS, ppsRun, ppsArg, hbrS_eq, inverseS_eq, loopS_eq]
  cases hbr Rnd.exact inv A b <;> rfl

/-- The system `Neumeier(5, 10)`. -/
def sysA : Fin 5 → Fin 5 → Iv ℚ := fun i j => if i = j then ⟨.classical, 10, 10⟩ else ⟨.classical, 0, 2⟩

/-- See `sysA`. -/
def sysB : Fin 5 → Iv ℚ := fun _ => ⟨.classical, -1, 1⟩

/-- The run for one component. -/
def comp (nu : Fin 5) : Option ℚ :=
  match inverseS Rnd.exact sysA with
  | .error _ => none
  | .ok invA => forceMat 5 5 invA fun invA =>
      match algoS (1 / 10 ^ 12) 100 nu 2001 sysA invA sysB with
      | .error _ => none
      | .ok p => some p.1

/-- The documented call builds `sysA` and `sysB`. -/
theorem system : neumaierSystem Rnd.exact 5 (10 : ℚ) none none = .ok (sysA, sysB) := by
  have hA : setDiag (fun _ _ => zeroPlus Rnd.exact (mkIv 0 2)) (fun _ => mkIv 10 10) = sysA := by
    funext i j
    revert i j
    decide +kernel
  unfold neumaierSystem
  rw [if_neg (by norm_num), hA]
  dsimp only [Option.getD]
  rw [if_neg (by norm_num)]
  rfl

/-- The printed endpoints. -/
def shown (r : PpsRes (List (Iv ℚ))) : Option (List (ℚ × ℚ)) :=
  match r with
  | .error _ => none
  | .ok l => some (l.map fun X => (X.a, X.b))

/-- If the strict runs give `-3/14` for every component, then `PPS` of the model returns `[-3/14, 3/14]` in every component. -/
theorem documented (hc : ∀ nu, comp nu = some (-3 / 14)) :
    shown (pps Rnd.exact inv solve (1 / 10 ^ 12) 100 2000 sysA sysB none) = some (List.replicate 5 (-3 / 14, 3 / 14)) := by
  have hp : ppsPlus Rnd.exact sysB = sysB := by funext i; revert i; decide +kernel
  have hm : ppsMinus Rnd.exact sysB = sysB := by funext i; revert i; decide +kernel
  have hdet : (Matrix.of fun i j => (sysA i j).mid Rnd.exact).det ≠ 0 := by
    have h : ∃ N, inv (fun i j => (sysA i j).mid Rnd.exact) = .ok N := by
      have : (match inv (fun i j => (sysA i j).mid Rnd.exact) with | .ok _ => true | .error _ => false) = true := by decide +kernel
      cases h : inv (fun i j => (sysA i j).mid Rnd.exact) with
      | ok N => exact ⟨N, rfl⟩
      | error e => rw [h] at this; cases this
    obtain ⟨N, hN⟩ := h
    exact Matrix.det_ne_zero_of_right_inverse (inv_exact _ N hN)
  unfold comp at hc
  rw [inverseS_eq] at hc
  unfold pps
  rw [if_neg hdet, hp, hm]
  cases hi : ppsInverse Rnd.exact sysA with
  | error e => rw [hi] at hc; cases hc 0
  | ok invA =>
    rw [hi] at hc
    dsimp only at hc ⊢
    have ha : ∀ nu, ppsAlgo (ppsArg Rnd.exact inv solve (1 / 10 ^ 12) 100 nu) 2000 sysA invA sysB = .ok (-3 / 14) := by
      intro nu
      have hc := hc nu
      rw [forceMat_eq] at hc
      unfold ppsAlgo
      rw [← algoS_eq]
      rw [show ((2000 : ℤ) + 1).toNat = 2001 from rfl]
      cases h : algoS (1 / 10 ^ 12) 100 nu 2001 sysA invA sysB with
      | error e => rw [h] at hc; cases hc
      | ok p =>
        rw [h] at hc
        simp only [Option.some.injEq] at hc
        simp only [hc]
    have hf : List.finRange 5 = [0, 1, 2, 3, 4] := by decide
    simp only [Option.elim, hf, ppsBounds, ha, List.zipWith, shown, List.map, mkIv]
    norm_num [List.replicate]

/-- /repo/doc/src/linear.rst:476-478: all components are printed as `[-0.214286, 0.214286]`.  The hypothesis of `documented` is evaluated by
Lean's interpreter; the kernel would need too much memory for it. -/
def allComps : List (Option ℚ) := (List.finRange 5).map comp

#guard allComps = List.replicate 5 (some (-3 / 14))

end RunsPPS
end IntvalPy
