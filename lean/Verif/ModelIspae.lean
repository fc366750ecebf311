import Verif.ModelModels
import Mathlib.Algebra.BigOperators.Fin

/-!
# `ISPAE`: the polynomial bases, the bias column and the whole of `fit`

/repo/intvalpy/models/ISPAE.py:18-42, 264-374.  The objective and the prediction for given columns are in `ModelModels`.
-/

set_option autoImplicit false
set_option linter.unusedSectionVars false

namespace IntvalPy

variable {K : Type*} [Field K] [LinearOrder K] {m : ℕ}

/-! ## Bases -/

/-- The names accepted by the constructor, /repo/intvalpy/models/ISPAE.py:35-42. -/
inductive PolyBasis
  | monom | chebyshev | hermite | laguerre | legendre
  deriving DecidableEq

/-- `numpy.polynomial.chebyshev.Chebyshev.basis(d)` by the recurrence of the Chebyshev polynomials. -/
def chebFn : ℕ → K → K
  | 0, _ => 1
  | 1, t => t
  | n + 2, t => 2 * t * chebFn (n + 1) t - chebFn n t

/-- `numpy.polynomial.hermite.Hermite.basis(d)`: the physicists' Hermite polynomials. -/
def hermFn : ℕ → K → K
  | 0, _ => 1
  | 1, t => 2 * t
  | n + 2, t => 2 * t * hermFn (n + 1) t - 2 * (n + 1) * hermFn n t

/-- `numpy.polynomial.laguerre.Laguerre.basis(d)`. -/
def lagFn : ℕ → K → K
  | 0, _ => 1
  | 1, t => 1 - t
  | n + 2, t => ((2 * n + 3 - t) * lagFn (n + 1) t - (n + 1) * lagFn n t) / (n + 2)

/-- `numpy.polynomial.legendre.Legendre.basis(d)`. -/
def legFn : ℕ → K → K
  | 0, _ => 1
  | 1, t => t
  | n + 2, t => ((2 * n + 3) * t * legFn (n + 1) t - (n + 1) * legFn n t) / (n + 2)

/-- `self.basis(d)` as a function, /repo/intvalpy/models/ISPAE.py:35-42; the values of numpy's polynomials are those of
the mathematical ones (exact arithmetic). -/
def PolyBasis.fn : PolyBasis → ℕ → K → K
  | .monom => fun d t => t ^ d
  | .chebyshev => chebFn
  | .hermite => hermFn
  | .laguerre => lagFn
  | .legendre => legFn

/-! ## The bias column and the orders -/

/-- The argument `order`: a number or a sequence. -/
inductive OrderArg
  | one (k : ℤ)
  | many (l : List ℤ)

/-- `self.order`, /repo/intvalpy/models/ISPAE.py:311-319, for `C` columns of data. -/
def ispaeOrders (bias : Bool) (C : ℕ) (order : OrderArg) : Except Err (List ℤ) :=
  match order with
  | .many l => if l.length = C then .ok (if bias then 1 :: l else l) else .error .assertionError
  | .one k => .ok (if bias then 1 :: List.replicate C k else List.replicate C k)

/-- The data of `fit` once the bias column is inserted (the number 1 in every row, lines 303-308) and the orders are
known; the number of columns depends on `bias`. -/
abbrev IspaeCols (K : Type*) (m : ℕ) := (C : ℕ) × IspaeData K m C

/-- Rows with the bias column in front, /repo/intvalpy/models/ISPAE.py:306-307, 390-391. -/
def biasRow {C : ℕ} (x : Fin C → Iv K) : Fin (C + 1) → Iv K := Fin.cons ⟨.classical, 1, 1⟩ x

/-- The orders as natural numbers; orders below 1 give no columns in `_expand_dataframe` (line 259). -/
def orderVec (l : List ℤ) {C : ℕ} (c : Fin C) : ℕ := (l.getD c 1).toNat

/-- The assertions and the expansion of `fit`, /repo/intvalpy/models/ISPAE.py:303-331, for a matrix `X` with `m` rows and
`C` columns: a sequence of orders of another length, another number of outputs and an order below 1 raise
`AssertionError`; improper inputs raise `ValueError` in the expansion, and so does an expansion without columns
(`np.vectorize` on no items). -/
def ispaeSetup {C : ℕ} (bias : Bool) (X : Fin m → Fin C → Iv K) (y : List (Iv K)) (order : OrderArg) :
    Except Err (IspaeCols K m) :=
  match ispaeOrders bias C order with
  | .error e => .error e
  | .ok l =>
      if m = 0 ∨ (∀ k ∈ l, k ≤ 0) ∨ ∃ i c, 0 < l.getD (if bias then c.val + 1 else c.val) 1 ∧ (X i c).b < (X i c).a then
        .error .valueError
      else if y.length ≠ m then .error .assertionError
      else if ∃ k ∈ l, k < 1 then .error .assertionError
      else .ok (if bias then ⟨C + 1, orderVec l, fun i => biasRow (X i), fun i => y.getD i ⟨.classical, 0, 0⟩, fun _ => 1⟩
        else ⟨C, orderVec l, X, fun i => y.getD i ⟨.classical, 0, 0⟩, fun _ => 1⟩)

/-- `beta[sum(order[:k]) : sum(order[:k+1])]`, /repo/intvalpy/models/ISPAE.py:144: the coefficients of one column out of
the vector the optimiser works with. -/
def coeffsOf {C : ℕ} (order : Fin C → ℕ) (x : Fin (∑ c, order c) → K) : Coeffs K order :=
  fun c d => x (finSigmaFinEquiv ⟨c, d⟩)

/-- The vector of all coefficients; the inverse of `coeffsOf` (`coeffsOf_vecOf`). -/
def vecOf {C : ℕ} (order : Fin C → ℕ) (b : Coeffs K order) : Fin (∑ c, order c) → K :=
  fun j => b (finSigmaFinEquiv.symm j).1 (finSigmaFinEquiv.symm j).2

/-- What `fit` leaves in the object: the columns with orders and final weights, and the estimator (whose `fr` is negated,
line 369). -/
structure IspaeEst (K : Type*) (m : ℕ) where
  C : ℕ
  data : IspaeData K m C
  est : RalgOut K (∑ c, data.order c)

/-- The function given to the optimiser, on vectors of coefficients, /repo/intvalpy/models/ISPAE.py:356-363. -/
def ispaeVecCalcfg {C : ℕ} (basis : ℕ → K → K) (roots : (K → K) → List K) (objective : Option Bool) (norm : NormArg)
    (D : IspaeData K m C) (x : Fin (∑ c, D.order c) → K) : Except Err (K × (Fin (∑ c, D.order c) → K)) :=
  match ispaeCalcfg basis roots objective norm D (coeffsOf D.order x) with
  | .error e => .error e
  | .ok r => .ok (r.1, vecOf D.order r.2)

/-- The initial guess for `N` coefficients, /repo/intvalpy/models/ISPAE.py:333-347: `start` when `x0` is not given, else a
copy of it, which must have the right length. -/
def ispaeStart (start : (N : ℕ) → Fin N → K) (x0 : Option (List K)) (N : ℕ) : Except Err (Fin N → K) :=
  match x0 with
  | none => .ok (start N)
  | some v => if v.length = N then .ok fun j => v.getD j 0 else .error .assertionError

/-- `fit`, /repo/intvalpy/models/ISPAE.py:264-374.  `start` is the initial guess the code computes from singular values
and least squares when `x0` is not given; a given `x0` must have as many entries as there are
coefficients.  Weights as in `fitWeights`; with more weights than rows the product with the residual raises
`ValueError` (for a single row numpy would broadcast, which is not modelled).  `P` are the parameters of the optimiser. -/
def ispaeFit {C : ℕ} (R : Rnd K) (st : K → K) (P : (N : ℕ) → RalgPar K N) (big : K) (alpha beta : K) (pb : PolyBasis)
    (roots : (K → K) → List K) (start : (N : ℕ) → Fin N → K) (bias : Bool) (X : Fin m → Fin C → Iv K) (y : List (Iv K))
    (order : OrderArg) (x0 : Option (List K)) (weight : Option (List K)) (objective : Option Bool) (norm : NormArg) :
    Except Err (IspaeEst K m × List K) :=
  match ispaeSetup bias X y order with
  | .error e => .error e
  | .ok S =>
      match ispaeStart start x0 (∑ c, S.2.order c) with
      | .error e => .error e
      | .ok b0 =>
        match fitWeights R st alpha beta m weight with
        | .error e => .error e
        | .ok w =>
            if w.length ≠ m then .error .valueError
            else
              let D : IspaeData K m S.1 := { S.2 with weight := weightVec w }
              match ispaeVecCalcfg pb.fn roots objective norm D b0 with
              | .error e => .error e
              | .ok _ =>
                  let o := ralgb5 (P _) big (fun x => orZero (ispaeVecCalcfg pb.fn roots objective norm D x)) b0
                  .ok (⟨S.1, D, { o with fr := -o.fr }⟩, w)

/-- The columns of a row of the test data, with the bias column in front when the model has one,
/repo/intvalpy/models/ISPAE.py:388-391; `x c` is the entry in the column `c` of the training data. -/
def testRow (bias : Bool) (x : ℕ → Iv K) (c : ℕ) : Iv K :=
  if bias then (match c with
    | 0 => ⟨.classical, 1, 1⟩
    | c + 1 => x c)
  else x c

/-- `predict` for one row, /repo/intvalpy/models/ISPAE.py:376-393, with what `fit` left in the object. -/
def ispaePredictEst (R : Rnd K) (pb : PolyBasis) (roots : (K → K) → List K) (bias : Bool) (E : IspaeEst K m)
    (x : ℕ → Iv K) : Except Err (Iv K) :=
  ispaePredict R pb.fn roots E.data.order (coeffsOf E.data.order E.est.xr) fun c => testRow bias x c

end IntvalPy
