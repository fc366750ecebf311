{"id": "C01", "title": "Sum and difference enclose every pointwise result", "statement": "For ordinary intervals X and Y with double endpoints, X + Y and X - Y contain x + y and x - y for every real x in X and y in Y, whatever the directed rounding of the endpoints does, as long as no endpoint overflows to infinity on the wrong side.", "quantifier": "all pairs of ordinary intervals with double endpoints, all real points in them, every floating-point format with directed rounding", "why_tests_cant": "tests compare a few computed endpoints with == or a tolerance; they cannot quantify over the real points inside and over all rounding situations", "anchors": ["intvalpy/kernel/interval_arithmetics.pyx: ClassicalArithmetic.__add__, __sub__, __neg__; RoundingContext"]}
{"id": "C02", "title": "Product encloses every pointwise product", "statement": "For ordinary intervals X and Y with double endpoints, X * Y contains x*y for all real x in X, y in Y, in all nine sign configurations and under directed rounding.", "quantifier": "all pairs of ordinary intervals, all real points in them, every directed rounding", "why_tests_cant": "nine sign cases times all roundings of four products; sampling cannot show the outermost product was rounded outwards", "anchors": ["intvalpy/kernel/interval_arithmetics.pyx: ClassicalArithmetic.__mul__"]}
{"id": "C03", "title": "Quotient: ValueError exactly when the divisor contains zero, otherwise an enclosure", "statement": "For ordinary X and Y, X / Y raises ValueError if and only if 0 is in Y, and otherwise contains x/y for all x in X, y in Y under directed rounding.", "quantifier": "all pairs of ordinary intervals with finite double endpoints, all real points", "why_tests_cant": "the raise condition is an if-and-only-if over all divisors, and the enclosure is over a continuum of quotients", "anchors": ["intvalpy/kernel/interval_arithmetics.pyx: ClassicalArithmetic.__truediv__, BaseTools.__contains__"]}
{"id": "C04", "title": "Dividing an interval by a plain number keeps the enclosure", "statement": "For an ordinary interval X and a nonzero number c, X / c contains x / c for every x in X (the guarantee the user guide gives for every operation).", "quantifier": "all ordinary intervals, all nonzero doubles c", "why_tests_cant": "a rounding-to-nearest reciprocal is wrong by less than one unit in the last place; tests with a tolerance never see it", "anchors": ["intvalpy/kernel/interval_arithmetics.pyx: ClassicalArithmetic.__truediv__ (number branch), KaucherArithmetic.__truediv__ (number branch)"]}
{"id": "C05", "title": "Number-first operations enclose", "statement": "For a finite double c and an ordinary interval X, c + X, c - X, c * X contain every pointwise result, and c / X raises ValueError iff 0 is in X and otherwise contains every c / x.", "quantifier": "all finite doubles c, all ordinary intervals X, all points of X", "why_tests_cant": "reflected operators are separate code paths; sign cases of c and rounding cannot be enumerated", "anchors": ["intvalpy/kernel/interval_arithmetics.pyx: ClassicalArithmetic.__radd__, __rsub__, __rmul__, __rtruediv__"]}
{"id": "C06", "title": "Integer powers enclose the range and are exact in exact arithmetic", "statement": "For a nonnegative integer n and an ordinary interval X, X ** n contains x ** n for all x in X; in exact arithmetic and n > 0 its endpoints are attained. For negative integer exponents with X below zero a ValueError is raised.", "quantifier": "all ordinary intervals, all natural exponents", "why_tests_cant": "depends on parity of n and the position of zero; the exponent is unbounded", "anchors": ["intvalpy/kernel/interval_arithmetics.pyx: ClassicalArithmetic.__pow__"]}
{"id": "C07", "title": "Every arithmetic operation leaves the floating-point rounding mode as it found it", "statement": "After +, -, *, /, **, inv, reflected operations and numpy-dispatched operations, whether they return or raise, the process rounding mode is the one that was active before the call.", "quantifier": "all operations, all operands, all initial rounding modes, normal and exceptional exits", "why_tests_cant": "a leaked rounding mode only shows up in unrelated later computations; needs all exit paths", "anchors": ["intvalpy/kernel/interval_arithmetics.pyx: RoundingContext.__enter__, RoundingContext.__exit__"]}
{"id": "C08", "title": "Enclosure also holds for Python integer endpoints", "statement": "Endpoints given as Python integers are kept exactly, and arithmetic on such intervals still encloses every pointwise result.", "quantifier": "all intervals whose endpoints are arbitrary Python integers", "why_tests_cant": "failure needs integers beyond 2**53 whose conversion to double is rounded to nearest; typical tests use small integers", "anchors": ["intvalpy/kernel/interval_arithmetics.pyx: BaseTools.__cinit__, BaseTools.a, BaseTools.b, ClassicalArithmetic.__add__"]}
{"id": "C09", "title": "Numpy scalars and Python floats behave alike as left operands of /", "statement": "np.float64(c) / X has the same outcome as float(c) / X, in particular it raises ValueError when 0 is in X.", "quantifier": "all finite c, all ordinary intervals X", "why_tests_cant": "it is a statement about two dispatch paths agreeing on every operand", "anchors": ["intvalpy/kernel/interval_arithmetics.pyx: BaseTools.__array_ufunc__ ('divide' branch), ClassicalArithmetic.__rtruediv__"]}
{"id": "C10", "title": "Ordinary intervals stay ordered through any sequence of operations", "statement": "Starting from intervals built by Interval(), every value reachable by +, -, *, /, **, negation, abs, dual, pro, opp, copy and mixed arithmetic that is reported as an ordinary (classical) interval has inf <= sup.", "quantifier": "all finite expressions built from these operations (induction over the operation sequence)", "why_tests_cant": "it is an invariant over unboundedly long histories mixing two interval classes", "anchors": ["intvalpy/kernel/interval_arithmetics.pyx: ClassicalArithmetic, KaucherArithmetic, BaseTools.dual, pro, opp", "intvalpy/kernel/real_intervals.py: SingleInterval"]}
{"id": "C11", "title": "Exact-arithmetic sharpness of + - * /", "statement": "Without rounding, X op Y is exactly the set of all x op y: both endpoints are attained by points of X and Y.", "quantifier": "all pairs of ordinary intervals over an ordered field", "why_tests_cant": "attainment is an existence statement for every input", "anchors": ["intvalpy/kernel/interval_arithmetics.pyx: ClassicalArithmetic.__add__, __sub__, __mul__, __truediv__"]}
{"id": "C12", "title": "Fundamental theorem: evaluating any expression on intervals encloses it on points", "statement": "For any arithmetic expression over variables, integer and real constants (+, -, *, /, integer powers, negation), if evaluation on interval arguments succeeds, the result contains the value of the expression at every point of the arguments; shrinking the arguments shrinks the exact-arithmetic result.", "quantifier": "all expression trees, all interval arguments, all points", "why_tests_cant": "needs structural induction over unbounded expressions", "anchors": ["intvalpy/kernel/interval_arithmetics.pyx: ClassicalArithmetic", "intvalpy/kernel/real_intervals.py: ArrayInterval arithmetic"]}
{"id": "C13", "title": "Kaucher intervals form an additive group", "statement": "In exact arithmetic, addition of (proper or improper) intervals is commutative and associative, [0,0] is neutral, and X + X.opp equals [0, 0]; X - Y equals X + (-Y).", "quantifier": "all proper and improper intervals of either class", "why_tests_cant": "algebraic laws over all triples", "anchors": ["intvalpy/kernel/interval_arithmetics.pyx: KaucherArithmetic.__add__, __sub__, ClassicalArithmetic.__add__, BaseTools.opp"]}
{"id": "C14", "title": "Kaucher multiplication is the lattice product and has inverses", "statement": "In exact arithmetic the product of two intervals of Kaucher class equals Kaucher's product (min/max of products over the proper projections), it extends ordinary multiplication, it is commutative, and X * X.inv = [1,1] whenever both endpoints of X have the same strict sign.", "quantifier": "all pairs of proper and improper intervals", "why_tests_cant": "sixteen sign cases over a continuum of endpoints", "anchors": ["intvalpy/kernel/interval_arithmetics.pyx: KaucherArithmetic.__mul__, BaseTools.inv"]}
{"id": "C15", "title": "Multiplication does not depend on operand order or on the internal class of a proper interval", "statement": "X * Y equals Y * X, and equals the ordinary product whenever both X and Y have inf <= sup, no matter by which operations the operands were produced.", "quantifier": "all pairs of intervals of both classes, including proper intervals produced by Kaucher operations", "why_tests_cant": "the failing configuration needs an interval whose class was left over from an earlier operation", "anchors": ["intvalpy/kernel/interval_arithmetics.pyx: ClassicalArithmetic.__mul__ (Kaucher branch), KaucherArithmetic.__mul__"]}
{"id": "C16", "title": "The algebraic inverse of an interval", "statement": "X.inv raises ZeroDivisionError when an endpoint is zero; otherwise its endpoints are the (outward rounded) reciprocals and the returned object is classical only if it is ordered.", "quantifier": "all proper and improper intervals", "why_tests_cant": "class decision depends on the relation of endpoints with different signs, rarely sampled", "anchors": ["intvalpy/kernel/interval_arithmetics.pyx: BaseTools.inv"]}
{"id": "C17", "title": "dual, pro and opp laws", "statement": "X.dual.dual, X.opp.opp and X.pro.pro equal X, X and X.pro; X.pro always contains both endpoints in order; X.opp = -(X.dual); dual reverses inclusion; the class of the results is classical iff inf <= sup.", "quantifier": "all intervals of both classes", "why_tests_cant": "laws over all intervals", "anchors": ["intvalpy/kernel/interval_arithmetics.pyx: BaseTools.dual, pro, opp, __neg__"]}
{"id": "C18", "title": "Comparison operators are consistent", "statement": "== is an equivalence and != its negation; <= is a partial order whose antisymmetry gives ==; < is irreflexive and transitive, x < y iff both endpoints are strictly less; >= and > are the converses; comparison with a non-interval raises TypeError.", "quantifier": "all triples of non-NaN intervals", "why_tests_cant": "transitivity and antisymmetry quantify over triples", "anchors": ["intvalpy/kernel/interval_arithmetics.pyx: BaseTools.__lt__, __le__, __eq__, __ne__, __gt__, __ge__"]}
{"id": "C19", "title": "The in operator means containment", "statement": "number in X iff X.inf <= number <= X.sup; Y in X for proper Y iff every point of Y is in X; for interval arrays, y in Y iff every component is contained.", "quantifier": "all numbers, intervals, and arrays of any length", "why_tests_cant": "set inclusion quantifies over a continuum; the array form over all lengths", "anchors": ["intvalpy/kernel/interval_arithmetics.pyx: BaseTools.__contains__", "intvalpy/kernel/real_intervals.py: ArrayInterval.__contains__"]}
{"id": "C20", "title": "mig, mag, mid, rad, wid are what the guide says", "statement": "For an ordinary interval, mag is the largest and mig the smallest absolute value of its points; in exact arithmetic mid - rad and mid + rad are the endpoints and wid = 2 rad; abs(X) is the range of |x|.", "quantifier": "all ordinary intervals", "why_tests_cant": "extremal statements over a continuum of points", "anchors": ["intvalpy/kernel/interval_arithmetics.pyx: BaseTools.mig, mag, mid, rad, wid, __abs__"]}
{"id": "C21", "title": "Constructor normal form", "statement": "Interval(l, r) always yields an ordered classical interval with the endpoint set {l, r}; with sortQ=False endpoints are kept in order and the result is classical iff l <= r; with midRadQ=True it is [l-r, l+r] and a negative radius fails.", "quantifier": "all pairs of numbers and all flag values", "why_tests_cant": "decision table over a continuum", "anchors": ["intvalpy/kernel/real_intervals.py: SingleInterval, Interval"]}
{"id": "C22", "title": "Interval(x) for a single number is the degenerate interval", "statement": "As documented, Interval(4) is [4, 4]; Interval of an interval returns it unchanged.", "quantifier": "all single numeric arguments", "why_tests_cant": "no test calls the one-number form at all, and a sampled number would not show that the failure covers every numeric type", "anchors": ["intvalpy/kernel/real_intervals.py: Interval", "doc/src/guide.rst"]}
{"id": "C23", "title": "intersection", "statement": "For proper X and Y every common point is in intersection(X, Y); when they do intersect the result is exactly the common part; the result is a NaN interval only if the operands are disjoint (with a gap over 1e-15), and operands that are not intervals are converted first as documented.", "quantifier": "all pairs of proper intervals and equal-shape arrays", "why_tests_cant": "set equality over a continuum and a tolerance branch", "anchors": ["intvalpy/kernel/preprocessing.py: intersection", "doc/src/general.rst"]}
{"id": "C24", "title": "dist is a metric", "statement": "dist(X, Y) is nonnegative, symmetric, zero iff X == Y, and satisfies the triangle inequality; for vectors it is the maximum over components.", "quantifier": "all triples of intervals and of equal-length interval vectors", "why_tests_cant": "triangle inequality over all triples and lengths", "anchors": ["intvalpy/kernel/utils.py: dist"]}
{"id": "C25", "title": "Interval arrays: copies and slices never alias, in-place changes stay local", "statement": "After Y = X.copy() or Y = X[slice] (or transpose, reshape), no sequence of item assignments, deletions or augmented assignments on one of them changes the other; assigning an element changes exactly that element.", "quantifier": "all operation sequences of any length on any number of live arrays", "why_tests_cant": "aliasing bugs need particular interleavings of operations on several references", "anchors": ["intvalpy/kernel/real_intervals.py: ArrayInterval.copy, __getitem__, __setitem__, __delitem__, __iadd__, T, reshape"]}
{"id": "C26", "title": "Matrix products enclose", "statement": "(A @ B)[i, k] contains the entry of A' B' for every point matrix A' in A and B' in B, also when one factor is a point matrix; in exact arithmetic A @ x for a point vector x is exactly the range.", "quantifier": "all dimensions, all interval matrices, all point matrices in them, every directed rounding", "why_tests_cant": "dimension is unbounded and the point matrices form a continuum", "anchors": ["intvalpy/kernel/real_intervals.py: ArrayInterval.__matmul__, __rmatmul__"]}
{"id": "C27", "title": "vertex enumerates exactly the corners", "statement": "X.vertex of an interval vector of length n contains every vector whose components are endpoints of X, and nothing else, 2**n rows in total.", "quantifier": "all lengths n and all interval vectors", "why_tests_cant": "exponentially many rows for unbounded n", "anchors": ["intvalpy/kernel/real_intervals.py: ArrayInterval.vertex"]}
{"id": "C28", "title": "exp, log and sqrt enclose the exact range", "statement": "exp(X), log(X) (X in the positive half-line clipped at 0), sqrt(X) contain exp x, log x, sqrt x for every x of the domain in X, provided the underlying libm results are within one ulp (exp) or correctly directed (log).", "quantifier": "all ordinary intervals, all points in the domain", "why_tests_cant": "transcendental values over a continuum; overflow handling is a corner case", "anchors": ["intvalpy/kernel/interval_arithmetics.pyx: BaseTools.exp, log, sqrt", "intvalpy/kernel/elementary_functions.py"]}
{"id": "C29", "title": "sin and cos enclose the exact range", "statement": "sin(X) and cos(X) contain sin x and cos x for every x in X, and with exact arithmetic they are exactly the range, for intervals of any width and position.", "quantifier": "all ordinary intervals, any number of periods", "why_tests_cant": "needs locating extrema among infinitely many periods", "anchors": ["intvalpy/kernel/interval_arithmetics.pyx: BaseTools.sin, BaseTools.cos"]}
{"id": "C30", "title": "Tol recognises the tolerable solution set", "statement": "In exact arithmetic, Tol.value(A, b, x) >= 0 if and only if A' x lies in b for every point matrix A' in A, for every system size and positive weights.", "quantifier": "all m, n, all interval A, b, all x, all positive weights", "why_tests_cant": "the right-hand side quantifies over all point matrices", "anchors": ["intvalpy/linear/Tol.py: BaseTol._constituent, Tol.value", "intvalpy/kernel/abstract.py: AbstractRecFun.value"]}
{"id": "C31", "title": "Uni and Uss recognise the united solution set", "statement": "In exact arithmetic, Uni.value(A, b, x) >= 0, and Uss.value(A, b, x) >= 0, if and only if there are A' in A and b' in b with A' x = b'.", "quantifier": "all m, n, all interval A, b, all x, all positive weights", "why_tests_cant": "Oettli-Prager type equivalence with an existential over matrices", "anchors": ["intvalpy/linear/Uni.py: BaseUni._constituent", "intvalpy/linear/Uss.py: BaseUss._constituent"]}
{"id": "C32", "title": "Tol is concave and the optimiser gets a true supergradient", "statement": "In exact arithmetic, Tol.value(A, b, .) is concave in x, and the (value, gradient) pair handed to the optimiser by Tol.maximize satisfies Tol(y) <= Tol(x) + g.(y-x) for all y.", "quantifier": "all systems, all x, y, all positive weights", "why_tests_cant": "an inequality over all pairs of points", "anchors": ["intvalpy/linear/Tol.py: BaseTol.calcfg"]}
{"id": "C33", "title": "Optimiser objective agrees with the public functional", "statement": "In exact arithmetic, the objective minimised by Tol/Uni/Uss.maximize equals minus the value reported by Tol/Uni/Uss.value at every point.", "quantifier": "all systems, points and positive weights", "why_tests_cant": "two independent implementations must agree everywhere, including ties and sign changes", "anchors": ["intvalpy/linear/Tol.py: BaseTol.calcfg, _constituent", "intvalpy/linear/Uni.py: BaseUni.calcfg", "intvalpy/linear/Uss.py: BaseUss.calcfg"]}
{"id": "C34", "title": "Linear constraints and penalty", "statement": "LinearConstraint(C, lb, ub) represents exactly {x : lb <= C x <= ub}: the penalty is zero iff x satisfies all the bounds and positive otherwise (mu > 0); the constrained objective equals the unconstrained one on feasible points.", "quantifier": "all numbers of rows, all matrices, bounds with and without infinities, all x", "why_tests_cant": "row filtering and scaling for arbitrary bound patterns", "anchors": ["intvalpy/kernel/abstract.py: LinearConstraint.__init__, linear_penalty, calcfg_constr", "intvalpy/linear/Tol.py: BaseTol.calcfg_constr"]}
{"id": "C35", "title": "ralgb5 bookkeeping", "statement": "For any objective, ralgb5 returns a point it evaluated, the objective value at that point, which is the least of all evaluated values (so never worse than at the start), the exact number of evaluations, at most 1 + 501*(maxiter+1) evaluations, and an exit code between 1 and 5.", "quantifier": "all objectives calcfg (any function), all starting points and parameters, all executions", "why_tests_cant": "the run length is data dependent and the objective arbitrary", "anchors": ["intvalpy/kernel/ralgb5.py: ralgb5"]}
{"id": "C36", "title": "maximize returns a certified point", "statement": "In exact arithmetic, the value returned by Tol.maximize / Uni.maximize / Uss.maximize is the functional at the returned point (hence a nonnegative value certifies that the point is in the solution set) and is at least the functional at x0. With a linear constraint (mu >= 0) it is the functional minus the penalty, hence a lower bound of the functional.", "quantifier": "all systems, all starting points and optimiser parameters", "why_tests_cant": "combines an optimiser loop of unbounded length with a set-membership equivalence", "anchors": ["intvalpy/kernel/abstract.py: AbstractRecFun.maximize, optimize", "intvalpy/kernel/ralgb5.py"]}
{"id": "C37", "title": "Interval Gaussian elimination encloses the united solution set", "statement": "If Gauss(A, b) returns X then every x with A' x = b' for some A' in A, b' in b lies in X.", "quantifier": "all n, all square interval systems, all point systems inside", "why_tests_cant": "the solution set is a continuum; n is unbounded; the elimination loop must be checked for every size", "anchors": ["intvalpy/linear/Gauss.py: Gauss"]}
{"id": "C38", "title": "Interval Gauss-Seidel never loses a solution in the start box", "statement": "Every solution x of A' x = b' (A' in A, b' in b) that lies in the start box lies in the box returned by Gauss_Seidel after any number of passes (maxiter >= 0; a negative maxiter performs no pass and returns the zero vector); if it raises because the intersection is empty, there is no such solution; the returned box is a subset of the start box up to the intersection tolerance.", "quantifier": "all n, all systems, all preconditioners, all iteration counts", "why_tests_cant": "invariant over an unbounded iteration", "anchors": ["intvalpy/linear/Gauss_Seidel.py: Gauss_Seidel"]}
{"id": "C39", "title": "Krawczyk iteration keeps every zero", "statement": "For a one-dimensional function with interval extension func and derivative enclosure J, every zero in x0 belongs to the interval returned by Krawczyk after any number of iterations; if NaN is produced or it raises, there is no zero.", "quantifier": "all functions with such enclosures, all x0, all iteration counts", "why_tests_cant": "invariant over unbounded iterations and arbitrary functions", "anchors": ["intvalpy/nonlinear/external_evaluation.py: Krawczyk"]}
{"id": "C40", "title": "Hansen-Sengupta iteration keeps every zero; the vector form works", "statement": "Every zero of func in x0 belongs to the box returned by HansenSengupta; both HansenSengupta and Krawczyk accept interval vectors, as documented.", "quantifier": "all functions, start boxes, iteration counts, dimensions", "why_tests_cant": "unbounded iterations, and every vector call takes a path no unit test takes", "anchors": ["intvalpy/nonlinear/external_evaluation.py: HansenSengupta, Krawczyk", "intvalpy/kernel/real_intervals.py: ArrayInterval.to_float"]}
{"id": "C41", "title": "globopt bounds the global minimum at every stopping time", "statement": "For a function with inclusion-isotone interval extension, globopt returns (box, value) with box inside x0 and value enclosing the global minimum of the function over x0, whatever tol and maxiter are.", "quantifier": "all functions, boxes, tolerances and iteration limits", "why_tests_cant": "invariant of a branch-and-bound list over unboundedly many steps", "anchors": ["intvalpy/nonlinear/globopt.py: globopt, KeyWrapper"]}
{"id": "C42", "title": "Rohn's method for overdetermined united sets encloses when it converges", "statement": "If Rohn(A, b, consistency='uni') stops because its tolerance is met, every x with A' x = b' lies in the returned box, no matter how inaccurately the inner matrix inverse was computed.", "quantifier": "all m, n, all systems, all inverse approximations, all iteration counts", "why_tests_cant": "continuum of solutions and an iteration of unbounded length", "anchors": ["intvalpy/linear/Rohn.py: _Rohn_Uni"]}
{"id": "C43", "title": "Rohn's method for tolerable sets gives the exact hull", "statement": "With an exact linear-programming solver, Rohn(A, b, consistency='tol') returns for every coordinate the exact minimum and maximum over the tolerable solution set.", "quantifier": "all m, n, all systems", "why_tests_cant": "hull over a polyhedron described by a continuum of matrices", "anchors": ["intvalpy/linear/Rohn.py: _Rohn_Tol"]}
{"id": "C44", "title": "Hansen-Bliek-Rohn encloses the united solution set", "statement": "For an interval matrix whose preconditioned comparison matrix is inverse nonnegative, HBR(A, b) contains every x with A' x = b'; a matrix failing the H-matrix check is rejected.", "quantifier": "all n, all square systems", "why_tests_cant": "theorem over a continuum of point systems of any size", "anchors": ["intvalpy/linear/HBR.py: HBR"]}
{"id": "C45", "title": "Neumaier's inner estimate lies in the tolerable set", "statement": "The box returned by Neumaier(A, b, y) consists of points x with A' x in b for all A' in A, when y is in the tolerable set.", "quantifier": "all systems, all y in the tolerable set, all points of the box", "why_tests_cant": "an inclusion between continua", "anchors": ["intvalpy/linear/Neumaier.py", "test/tolerable_solution_set_estimation_tests.py"]}
{"id": "C46", "title": "ChebNorm is the worst-case residual", "statement": "ChebNorm.value(A, b, x) equals the maximum over rows, A' in A and b' in b of |A' x - b'|.", "quantifier": "all systems, all x", "why_tests_cant": "maximum over a continuum of matrices", "anchors": ["intvalpy/linear/ChebNorm.py: BaseChebNorm"]}
{"id": "C47", "title": "Subdifferential Newton: the subgradient represents the interval product", "statement": "For every interval a and Kaucher interval h the 2x2 block used by Subdiff satisfies: applied to (h.inf, h.sup) it gives (inf, sup) of a*h; and a reported zero residual means the returned vector is a formal solution of A x = b.", "quantifier": "all proper/improper pairs in all sixteen sign cases", "why_tests_cant": "each of the sixteen cases is a continuum", "anchors": ["intvalpy/linear/Subdiff.py: calcSubgrad, superMatrix, Subdiff"]}
{"id": "C48", "title": "Orthant systems used for plotting describe the solution set", "statement": "In each orthant the linear inequalities solved by IntLinIncR2 / IntLinIncR3 hold at x iff x is in that orthant and in the united (or tolerable, with consistency='tol') solution set.", "quantifier": "all numbers of equations, all orthants, all x", "why_tests_cant": "equivalence over all points and matrices", "anchors": ["intvalpy/linear/boundary_intervals.py: IntLinIncR2, IntLinIncR3"]}
{"id": "C49", "title": "Preprocessing of inequality systems preserves the solution set", "statement": "Removing zero rows and repeated rows from A x >= b before vertex enumeration does not change the set of solutions, and an inconsistent zero row is reported.", "quantifier": "all systems of inequalities", "why_tests_cant": "set equality for arbitrary many rows", "anchors": ["intvalpy/kernel/preprocessing.py: clear_zero_rows, non_repeat, unique", "intvalpy/linear/boundary_intervals.py: lineqs, lineqs3D"]}
{"id": "C50", "title": "Boundary intervals are exactly the edges", "statement": "For every inequality of A x >= b the boundary interval computed for it (possibly unbounded) is the set of points on its boundary line that satisfy all the other inequalities, and a system is declared empty only if it has no solution.", "quantifier": "all two-dimensional inequality systems of any number of rows", "why_tests_cant": "set equality on lines for unboundedly many constraints", "anchors": ["intvalpy/linear/boundary_intervals.py: BoundaryIntervals, ParticularPoints, Intervals2Path"]}
{"id": "C51", "title": "Plotting calls do not influence each other", "statement": "The vertices returned by IntLinIncR2(A, b, bounds) depend only on its arguments, not on earlier calls of lineqs or IntLinIncR2.", "quantifier": "all call histories", "why_tests_cant": "history dependence needs particular sequences of calls", "anchors": ["intvalpy/linear/boundary_intervals.py: __center_rm, lineqs, IntLinIncR2"]}
{"id": "C52", "title": "PSS is consistently guaranteeing", "statement": "Stopped after any number of iterations, the lower (upper) bound returned by PSS for a coordinate is not above (below) that coordinate of any solution of the united set.", "quantifier": "all systems, all iteration counts", "why_tests_cant": "branch-and-bound invariant over unboundedly many steps", "anchors": ["intvalpy/linear/PSS.py: PSS"]}
{"id": "C53", "title": "Extended division used by PSS", "statement": "For a zero-containing divisor the (one or two) intervals produced by the extended division contain every t with a' = b' t for some a' in a, b' in b.", "quantifier": "all dividends and all zero-containing divisors", "why_tests_cant": "six sign cases with unbounded results", "anchors": ["intvalpy/linear/PSS.py: kdiv / Omega helpers"]}
{"id": "C54", "title": "Polynomial regression values are exact ranges", "statement": "The interval ISPAE computes for one input column equals the exact range of the fitted polynomial over the input interval, given the true stationary points; the natural-extension prediction contains it.", "quantifier": "all polynomial degrees, coefficients and input intervals", "why_tests_cant": "extremum over a continuum, unbounded degree", "anchors": ["intvalpy/models/ISPAE.py: value_of_one_col, predict"]}
{"id": "C55", "title": "Fitting does not modify the caller's weights", "statement": "fit(X, y, weight=w) of the interval regression models leaves w unchanged, so that fitting twice with the same arguments gives the same model.", "quantifier": "all weight vectors and smoothing parameters", "why_tests_cant": "two-call history with shared mutable arguments", "anchors": ["intvalpy/models/WILS.py: fit", "intvalpy/models/ISPAE.py: fit"]}
{"id": "C56", "title": "Test systems have the documented entries", "statement": "Shary(n, N, alpha, beta), Neumaier(n, theta, infb, supb) and Toft(n, r, R) return matrices and right-hand sides with exactly the documented entries for every n, and reject parameters outside the documented ranges.", "quantifier": "all n and parameters", "why_tests_cant": "entries for unbounded n", "anchors": ["intvalpy/kernel/new_objects.py: Shary_system, Neumaier_system, Toft_system"]}
{"id": "C57", "title": "zeros, eye, full, diag, compmat", "statement": "zeros/full/eye build the documented interval arrays for every shape and diagonal offset; diag extracts the diagonal; compmat(A) is Ostrowski's comparison matrix (mig on the diagonal, minus mag elsewhere).", "quantifier": "all shapes and offsets", "why_tests_cant": "index laws over unbounded sizes", "anchors": ["intvalpy/kernel/new_objects.py", "intvalpy/kernel/utils.py: diag, compmat"]}
{"id": "C58", "title": "sign encloses the sign function", "statement": "sign(X) contains sign(x) for all x in X, and is [1,1] / [-1,-1] exactly when X lies on one side of zero.", "quantifier": "all ordinary intervals", "why_tests_cant": "continuum of points", "anchors": ["intvalpy/kernel/elementary_functions.py: sign"]}
{"id": "C59", "title": "subset / superset / contain helpers", "statement": "subset(A, B) holds iff every component of A is a subset of B's component, superset is its converse, the proper variants exclude equality, contain is componentwise and supercontain is its converse.", "quantifier": "all arrays of equal shape", "why_tests_cant": "set inclusion over all sizes", "anchors": ["intvalpy/kernel/utils.py: subset, superset, proper_subset, proper_superset, contain, supercontain"]}
{"id": "C60", "title": "PPS works on every regular system", "statement": "PPS(A, b) returns a box for systems with a point matrix as well as for interval matrices.", "quantifier": "all systems with a regular point matrix", "why_tests_cant": "the failing path depends on no splitting step being executed at all", "anchors": ["intvalpy/linear/PPS.py: PPS"]}
{"id": "C61", "title": "Unbounded intervals keep the enclosure", "statement": "For classical intervals whose endpoints may be infinite (log of an interval touching zero produces them), X + Y, X - Y and X * Y contain every pointwise result.", "quantifier": "all pairs of classical intervals with finite or infinite double endpoints, all real points, all rounding modes", "why_tests_cant": "the failing operand pairs need an infinite endpoint meeting a zero endpoint in a particular argument position of min/max", "anchors": ["intvalpy/kernel/interval_arithmetics.pyx: ClassicalArithmetic.__add__, __sub__, __mul__"]}
{"id": "C62", "title": "Products of proper Kaucher-class intervals are rounded outwards", "statement": "The product of two proper intervals reported as KaucherArithmetic encloses every pointwise product, like the classical product does, for IEEE double rounding.", "quantifier": "all pairs of proper Kaucher-class intervals, all real points in them", "why_tests_cant": "the error is one unit in the last place and appears only for operands of opposite sign", "anchors": ["intvalpy/kernel/interval_arithmetics.pyx: KaucherArithmetic.__mul__"]}
{"id": "C63", "title": "Array endpoint views return the stored endpoints", "statement": "For every interval array A, A.a[i] and A.b[i] equal the endpoints of the element A[i], whatever mixture of integer and float endpoints the elements have.", "quantifier": "all interval arrays, all index positions", "why_tests_cant": "the result depends on the type of the first element only, so arrays built from one kind of number never show it", "anchors": ["intvalpy/kernel/real_intervals.py: ArrayInterval.a, ArrayInterval.b, ArrayInterval.inf, ArrayInterval.sup"]}
{"id": "C64", "title": "numpy functions agree with the operators on interval operands", "statement": "np.add(X, Y) = X + Y, np.subtract(X, Y) = X - Y, np.multiply(X, Y) = X * Y, np.divide(X, Y) = X / Y when X is an interval (scalar or array).", "quantifier": "all interval operands", "why_tests_cant": "two code paths must agree on all operands; tests exercise only number-first dispatch", "anchors": ["intvalpy/kernel/interval_arithmetics.pyx: BaseTools.__array_ufunc__", "intvalpy/kernel/real_intervals.py: ArrayInterval.__array_ufunc__"]}
{"id": "C65", "title": "del A[key] deletes what A[key] selects", "statement": "For a one-dimensional interval array and an integer, slice or list key, del A[key] removes exactly the elements that A[key] selects and keeps the others in order; an integer out of range raises IndexError.", "quantifier": "all array lengths, all keys", "why_tests_cant": "the number of keys is unbounded and each kind of key takes its own branch", "anchors": ["intvalpy/kernel/real_intervals.py: ArrayInterval.__delitem__"]}
{"id": "C66", "title": "The shape attribute follows the data", "statement": "After any sequence of augmented assignments and deletions X.shape is the shape of the stored data.", "quantifier": "all operation sequences, all operand shapes", "why_tests_cant": "the attribute is a cached copy; only particular broadcasts make it stale", "anchors": ["intvalpy/kernel/real_intervals.py: ArrayInterval.__iadd__, __isub__, __imul__, __itruediv__, __delitem__, shape"]}
{"id": "C67", "title": "The gradients of Tol, Uni and Uss are right where the functional is affine", "statement": "If Tol/Uni/Uss.value is affine with slope s near x, the gradient handed to the optimiser at x is -s (in particular a nonzero slope is never reported as zero, which would stop the optimiser with code 2, and a flat piece is never reported as steep).", "quantifier": "all systems, weights and points at which the functional is locally affine", "why_tests_cant": "needs a check at every piece of a piecewise linear function of arbitrarily many variables", "anchors": ["intvalpy/linear/Tol.py: Tol.calcfg", "intvalpy/linear/Uni.py: Uni.calcfg", "intvalpy/linear/Uss.py: Uss.calcfg"]}
{"id": "C68", "title": "The default penalty factor is a positive number", "statement": "When LinearConstraint is given without mu, the factor computed by find_mu is a finite positive number.", "quantifier": "all constraint matrices and bounds", "why_tests_cant": "the factor is a minimum over all subsets of rows; the degenerate case appears for constraints bounded on both sides", "anchors": ["intvalpy/kernel/abstract.py: LinearConstraint.find_mu, BaseRecFun.linear_penalty, BaseRecFun.optimize"]}
{"id": "C69", "title": "ChebNorm.minimize gets a true subgradient", "statement": "The pair (value, gradient) handed to the optimiser by ChebNorm.minimize satisfies value + g.(y-x) <= ChebNorm.value(y) for all y.", "quantifier": "all systems, weights, points", "why_tests_cant": "an inequality over all pairs of points", "anchors": ["intvalpy/linear/ChebNorm.py: ChebNorm.calcfg, ChebNorm.value"]}
{"id": "C70", "title": "Ratschek's functional khi", "statement": "X.khi raises ZeroDivisionError exactly for X = [0, 0]; otherwise it is the endpoint of smaller magnitude divided by the other one (rounded to nearest); in exact arithmetic it lies in [-1, 1], is 1 exactly for nonzero degenerate X and -1 exactly for symmetric X.", "quantifier": "all intervals, any rounding", "why_tests_cant": "case split on magnitudes and signs over all endpoint pairs", "anchors": ["intvalpy/kernel/interval_arithmetics.pyx: BaseTools.khi"]}
{"id": "C71", "title": "Real powers enclose the range", "statement": "For an ordinary interval X >= 0 and a finite exponent c that is not a natural number, X ** c contains x ** c for every positive x in X (libm within one ulp for exp, correctly directed for log).", "quantifier": "all nonnegative ordinary intervals, all finite exponents, all rounding modes", "why_tests_cant": "real powers over a continuum; corner cases at zero and at overflow", "anchors": ["intvalpy/kernel/interval_arithmetics.pyx: ClassicalArithmetic.__pow__, BaseTools.log, BaseTools.exp"]}
{"id": "C72", "title": "Interval array divided by an interval", "statement": "An interval array divided by an interval D divides every element by D, and raises ValueError when D contains zero, as the division of two intervals does.", "quantifier": "all arrays and divisors", "why_tests_cant": "the divisor check must hold for every divisor, and the enclosure for every element and point", "anchors": ["intvalpy/kernel/interval_arithmetics.pyx: ClassicalArithmetic.__array_ufunc__", "intvalpy/kernel/real_intervals.py: ArrayInterval.__truediv__"]}
{"id": "C73", "title": "lineqs without a window draws every set with two points", "statement": "For a system of linear inequalities in the plane with at least two solutions, lineqs called without bounds returns normally with more than one vertex, also when the set is unbounded and the function chooses the window itself.", "quantifier": "all systems with at least two solutions, bounded or not", "why_tests_cant": "the automatic window depends on the feet of perpendiculars to the edges; only special shapes make it a point or make it miss the set", "anchors": ["intvalpy/linear/boundary_intervals.py: lineqs, ParticularPoints, Intervals2Path"]}
{"id": "C74", "title": "PSS returns for systems that Gauss solves", "statement": "For a square interval system on which Gauss succeeds, PSS without x0 returns bounds for all components, for every tolerance and iteration limit; it does not raise.", "quantifier": "all square systems solved by Gauss, all tolerances and iteration limits", "why_tests_cant": "whether the working list can run empty depends on ties between bounds of boxes, which random systems do not show", "anchors": ["intvalpy/linear/PSS.py: PSS"]}
{"id": "C75", "title": "The function WILS.fit minimises", "statement": "For norm='inf' the function WILS.fit minimises is minus the recognizing functional (Tol, Uni or Uss) of the training system with the smoothed weights, for norm='l1' minus the sum of its constituents; the fr of the fitted estimator is that value at its xr and is at least the value at x0.", "quantifier": "all training systems of ordinary intervals, weights, smoothing parameters, points, norms", "why_tests_cant": "an identity between two implementations of the functional at every point", "anchors": ["intvalpy/models/WILS.py: WILS.fit, WILS._tol_calcfg_extend, WILS._wrap_norm"]}
{"id": "C76", "title": "WILS passes true subgradients of the Tol objective", "statement": "For the objective Tol with nonnegative weights the vector WILS.fit hands to the optimiser is a subgradient of the function it minimises, for both norms: f(x) + g (z - x) <= f(z) for all x and z.", "quantifier": "all training systems of ordinary intervals, nonnegative weights, pairs of points", "why_tests_cant": "an inequality over all pairs of points", "anchors": ["intvalpy/models/WILS.py: WILS._tol_calcfg_extend"]}
{"id": "C77", "title": "Integer weights", "statement": "Weights given to fit as an array of integers have the same effect as the same numbers given as floats; positive weights stay positive after smoothing with 0 <= alpha < 1 and beta > 0.", "quantifier": "all weight vectors and smoothing parameters", "why_tests_cant": "depends on the dtype of the array and on the parameters together", "anchors": ["intvalpy/models/WILS.py: WILS.fit", "intvalpy/models/ISPAE.py: ISPAE.fit"]}
{"id": "C78", "title": "ISPAE passes true subgradients of the Tol objective", "statement": "For the objective Tol with positive weights the vector ISPAE.fit hands to the optimiser is a subgradient of the function it minimises (given the true stationary points), for every order of the polynomials and both norms.", "quantifier": "all training data, orders, bases, pairs of coefficient vectors", "why_tests_cant": "an inequality over all pairs of coefficient vectors; holds for order 1 and at many points of higher order", "anchors": ["intvalpy/models/ISPAE.py: ISPAE._tol_calcfg_extend, ISPAE.value"]}
{"id": "C79", "title": "PPS bounds contain the united solution set", "statement": "A box returned by PPS(A, b) for a regular interval matrix contains every solution of every point system inside the interval system, whatever the tolerance and the limit on the passes.", "quantifier": "all square interval systems with a regular matrix, tolerances, limits on the passes, components", "why_tests_cant": "the discarded subsystems depend on the whole history of splits, tags and monotony tests", "anchors": ["intvalpy/linear/PPS.py: PPS, algo, split"]}
{"id": "C80", "title": "PPS is optimal up to the tolerance", "statement": "In exact arithmetic, if the limit on the passes is not reached, every component of the box returned by PPS contains that component of all solutions and there are solutions no further than tol from both of its ends.", "quantifier": "all square interval systems with a regular matrix, tolerances, components", "why_tests_cant": "needs the exact solution set for comparison, and a proof that the upper bound is attained", "anchors": ["intvalpy/linear/PPS.py: PPS, algo, split"]}
{"id": "C81", "title": "lineqs returns all vertices", "statement": "For a system A x >= b of two unknowns with a nonempty bounded solution set, lineqs returns exactly the vertices of the set, each once, in clockwise order and rounded to twelve decimals; for an unbounded set it returns those of the part inside the drawing window.", "quantifier": "all systems of inequalities with two unknowns, windows", "why_tests_cant": "needs an independent computation of the vertices of arbitrary polygons, including points and segments; fails only when two vertices nearly coincide", "anchors": ["intvalpy/linear/boundary_intervals.py: lineqs, BoundaryIntervals, Intervals2Path, ParticularPoints"]}
{"id": "C82", "title": "IntLinIncR2 returns the vertices of the solution set in every orthant", "statement": "For an interval system with two unknowns IntLinIncR2 returns four lists, the vertices of the part of the united (or tolerable) solution set in each orthant; unbounded parts are cut with one common window that meets all of them.", "quantifier": "all interval systems with two unknowns, both kinds of consistency, windows", "why_tests_cant": "relates the drawn polygons to a solution set defined by quantifiers over all point systems", "anchors": ["intvalpy/linear/boundary_intervals.py: IntLinIncR2, lineqs"]}
{"id": "C83", "title": "lineqs3D outlines the faces of a bounded polyhedron", "statement": "For a system A x >= b of three unknowns with a bounded solution set lineqs3D returns, whatever the window argument and earlier calls, one closed path per face: the points returned are exactly the vertices of the set, every path goes once round a face, and every facet has a path.", "quantifier": "all systems of inequalities with three unknowns and bounded solution set", "why_tests_cant": "needs an independent description of the faces of arbitrary polyhedra, including degenerate ones", "anchors": ["intvalpy/linear/boundary_intervals.py: lineqs3D, ChangeVariable, BoundaryIntervals, Intervals2Path"]}
{"id": "C84", "title": "lineqs3D shows part of unbounded sets", "statement": "For an unbounded solution set lineqs3D outlines the part inside the given window; without a window it chooses one that shows part of every nonempty set.", "quantifier": "all systems of inequalities with three unknowns, windows", "why_tests_cant": "the window depends on the position of all vertices; slabs, half-spaces and sets far from the diagonal are rarely tried", "anchors": ["intvalpy/linear/boundary_intervals.py: lineqs3D"]}
{"id": "C85", "title": "IntLinIncR3 does not depend on earlier calls", "statement": "What IntLinIncR3 returns is determined by its arguments and not by earlier calls of the drawing functions; every call that returns leaves an empty history.", "quantifier": "all interval systems with three unknowns, all histories of calls", "why_tests_cant": "state in a module-level list; single calls in a fresh process never show it", "anchors": ["intvalpy/linear/boundary_intervals.py: IntLinIncR3, lineqs3D"]}
{"id": "C86", "title": "IntLinIncR3 outlines the solution set in every orthant", "statement": "For an interval system with three unknowns and a solution set bounded in every orthant IntLinIncR3 returns eight outlines: for each orthant the vertices and faces of the part of the united (or tolerable) solution set in it.", "quantifier": "all interval systems with three unknowns, both kinds of consistency", "why_tests_cant": "relates the drawn polyhedra to a solution set defined by quantifiers over all point systems", "anchors": ["intvalpy/linear/boundary_intervals.py: IntLinIncR3, lineqs3D"]}
{"id": "C87", "title": "Powers of improper intervals", "statement": "A positive natural power of an improper (Kaucher) interval [a, b], b < a, is dual to the power of the proper interval [b, a]: its endpoints, exchanged, are the range of x**n over [b, a].", "quantifier": "all improper intervals, all positive exponents", "why_tests_cant": "depends on the sign of both endpoints, the parity of the exponent and the order in which the rounded powers are compared", "anchors": ["intvalpy/kernel/interval_arithmetics.pyx: KaucherArithmetic.__pow__"]}
{"id": "C88", "title": "ive multiplies by the condition number of a corner matrix", "statement": "ive(A, b, N) returns sqrt(n) * f * c * ||x|| / ||b||, where f = Tol(x) is the value reached by the optimiser (at least the one at its starting point) and c is the condition number of a matrix in A all of whose entries are endpoints, the least one among the N drawn; so for a tolerable x the result is never below the product with the least condition number over A, more passes never increase it, and it is infinite or nan when no drawn matrix has a finite condition number or b is zero.", "quantifier": "all systems with proper intervals, all sequences of random draws, all numbers of passes", "why_tests_cant": "the draws are random and the minimum over all matrices is not computed anywhere", "anchors": ["intvalpy/linear/system_properties.py: ive", "intvalpy/kernel/real_intervals.py: ArrayInterval.a, ArrayInterval.b"]}
{"id": "C89", "title": "dist with a finite order is a metric", "statement": "For every order for which dist(x, y, order) returns numbers it is a metric on interval arrays of one shape: nonnegative, symmetric, zero exactly for equal endpoints, triangle inequality; positive integer orders p lie between the Chebyshev distance and n**(1/p) times it; the order 0 and orders that are not ints raise.", "quantifier": "all interval arrays of equal nonzero size, all orders", "why_tests_cant": "the triangle inequality is Minkowski's; negative orders are accepted silently", "anchors": ["intvalpy/kernel/utils.py: dist"]}
{"id": "C90", "title": "Binary64 results are the endpoint formulas with one rounding per operation", "statement": "For intervals of both classes, proper or improper, with float endpoints up to 2**500 (or integers up to 2**26; divisors not below 2**-500) every sum, difference, product and quotient, with intervals or numbers, in any ambient rounding mode, returns the endpoints given by the textbook formula in which each elementary operation is rounded once, down for the lower and up for the upper endpoint, and raises exactly the exceptions of the exact formula; the outcome does not depend on the ambient mode.", "quantifier": "all finite intervals of moderate size, all ambient rounding modes", "why_tests_cant": "needs an independent exact evaluation for every combination of classes, signs and modes", "anchors": ["intvalpy/kernel/interval_arithmetics.pyx: __add__, __sub__, __mul__, __truediv__, __radd__, __rsub__, __rmul__, __rtruediv__, inv, __array_ufunc__"]}
{"id": "C91", "title": "Mixed arithmetic of arrays, intervals and numbers", "statement": "For every combination of Python number, interval, interval array and numpy array with an interval among the operands: +, -, * and / return a result of numpy's broadcast shape that contains the result for every choice of points; a divisor with a zero raises; shapes that do not fit raise ValueError.", "quantifier": "all operators, all twelve combinations of operand kinds, all lengths, all roundings", "why_tests_cant": "each combination runs through different methods (reflected operators, __array_ufunc__, np.vectorize)", "anchors": ["intvalpy/kernel/real_intervals.py: ArrayInterval.__add__, __sub__, __mul__, __truediv__, __radd__, __rsub__, __rmul__, __rtruediv__, __array_ufunc__", "intvalpy/kernel/interval_arithmetics.pyx: BaseTools.__array_ufunc__"]}
{"id": "C92", "title": "Operations with arrays give interval arrays", "statement": "Whenever one operand is an array and an interval takes part, the result is an interval array; powers of interval arrays are taken element by element and enclose.", "quantifier": "all operators, all combinations of operand kinds, all lengths", "why_tests_cant": "the kind of the result depends on the dispatch, not on the values", "anchors": ["intvalpy/kernel/interval_arithmetics.pyx: BaseTools.__array_ufunc__, __add__, __sub__, __mul__, __truediv__", "intvalpy/kernel/real_intervals.py: ArrayInterval.__pow__"]}
{"id": "C93", "title": "Gauss_Seidel accepts only H-matrices", "statement": "Gauss_Seidel raises AssertionError exactly when the preconditioned matrix C @ A is not an H-matrix (its point matrices diagonally dominant with common positive weights).", "quantifier": "all n, all square systems, all point preconditioners", "why_tests_cant": "the H-matrix property quantifies over weights and point matrices", "anchors": ["intvalpy/linear/Gauss_Seidel.py: Gauss_Seidel"]}
{"id": "C94", "title": "The midpoint lies in the interval", "statement": "For every interval with finite endpoints a <= b the property mid (and the helper mid) returns a number t with a <= t <= b, in every rounding mode.", "quantifier": "all pairs of finite endpoints, floats or ints, all rounding modes", "why_tests_cant": "overflow of the sum, subnormal halves and large integer endpoints are rare inputs", "anchors": ["intvalpy/kernel/interval_arithmetics.pyx: BaseTools.mid", "intvalpy/kernel/utils.py: mid"]}
{"id": "C95", "title": "Midpoint and radius describe the interval", "statement": "Every point of an interval with binary64 endpoints is at distance at most rad from mid.", "quantifier": "all pairs of binary64 endpoints below half the largest double, all points between them", "why_tests_cant": "the violation is below the rounding unit and invisible in printed output", "anchors": ["intvalpy/kernel/interval_arithmetics.pyx: BaseTools.mid, BaseTools.rad"]}
{"id": "C96", "title": "The helper functions work element by element", "statement": "wid, mid, rad, inf, sup, mag and khi, applied to a nonempty interval array or list of numbers and intervals, return at every position the value for the element there.", "quantifier": "all helpers, all lists of numbers and intervals with int or float endpoints", "why_tests_cant": "the output type is taken from the first element only", "anchors": ["intvalpy/kernel/utils.py: wid, mid, rad, inf, sup, mag, khi", "intvalpy/kernel/real_intervals.py: ArrayInterval.wid, mid, rad, mag, khi"]}
{"id": "C97", "title": "The helper functions treat a number as a degenerate interval", "statement": "For a number c each of wid, mid, rad, inf, sup, mag and khi returns what it returns for the interval [c, c]; isnan is true exactly when an endpoint is NaN.", "quantifier": "all helpers, all binary64 numbers", "why_tests_cant": "needs a comparison for every helper and every number", "anchors": ["intvalpy/kernel/utils.py: wid, mid, rad, inf, sup, mag, khi, isnan"]}
{"id": "C98", "title": "get_shape returns the shape of nested lists", "statement": "get_shape returns the shape of every rectangular nested list (of numbers, intervals and arrays), as numpy does, and raises for ragged lists.", "quantifier": "all nested lists of any depth", "why_tests_cant": "raggedness can sit anywhere below the first items", "anchors": ["intvalpy/kernel/preprocessing.py: get_shape"]}
{"id": "C99", "title": "asinterval of nested lists", "statement": "asinterval of a rectangular nested list of numbers, intervals and arrays is an interval array of the same shape with the given interval, or the degenerate interval of the given number, at every multi-index; ragged lists raise TypeError; intervals and interval arrays are returned unchanged.", "quantifier": "all nested lists of any depth, all multi-indices", "why_tests_cant": "unbounded depth and sizes", "anchors": ["intvalpy/kernel/preprocessing.py: asinterval", "intvalpy/kernel/real_intervals.py: Interval, SingleInterval"]}
{"id": "C100", "title": "IPlot.scatter draws every box exactly once", "statement": "scatter(x, y) passes each pair of intervals to matplotlib exactly once: as a marker when it is a point, as an outline when it is a segment, as a filled polygon otherwise; the polygon has the four corners in cyclic order and spans the box.", "quantifier": "all lengths, all pairs of proper intervals", "why_tests_cant": "drawings are not compared by tests", "anchors": ["intvalpy/kernel/visualization.py: IPlot.scatter"]}
{"id": "C101", "title": "default penalty factor makes the penalised maximum the constrained maximum", "statement": "When maximize is called with a LinearConstraint without mu, the factor chosen by the package makes the maximum of the penalised functional equal to the maximum over the points that satisfy the constraint, so the search does not leave the constraint.", "quantifier": "all systems, weights, constraint matrices and bounds with a feasible point", "why_tests_cant": "inequality over all points of the space", "anchors": ["intvalpy/kernel/abstract.py:48-55", "intvalpy/kernel/abstract.py:252-269"]}
{"id": "C102", "title": "maximize with a LinearConstraint does not depend on earlier calls with the same object", "statement": "The value and point returned by maximize with a LinearConstraint are the same whether or not the object was passed to an earlier maximize call for another system.", "quantifier": "all pairs of calls, systems and functionals", "why_tests_cant": "state shared between calls; tests use a fresh object", "anchors": ["intvalpy/kernel/abstract.py:53-55", "intvalpy/kernel/abstract.py:268"]}
{"id": "C103", "title": "Interval of lists keeps the given ends", "statement": "For two nested lists of numbers of the same shape, Interval(x, y) is an array of that shape whose ends at every multi-index are exactly the two numbers given there (sorted on request); lists of different shape are rejected.", "quantifier": "all nested lists of ints and floats of any depth, both values of sortQ", "why_tests_cant": "rounding of integers appears only above 2^53 and only when a float is in the list", "anchors": ["intvalpy/kernel/real_intervals.py:453-457", "intvalpy/kernel/real_intervals.py:471"]}
{"id": "C104", "title": "the midpoint-radius form contains the ball", "statement": "Interval(c, r, midRadQ=True) contains every number at distance at most r from c, and rejects negative radii.", "quantifier": "all pairs of binary64 numbers and integers without overflow", "why_tests_cant": "one-ulp errors", "anchors": ["intvalpy/kernel/real_intervals.py:379-381"]}
{"id": "C105", "title": "no number given to Interval is ignored", "statement": "When Interval(list) returns an array, every number of the list is one of the ends of the interval at its position; a list of two numbers gives the scalar interval.", "quantifier": "all nested lists of numbers of any depth and shape", "why_tests_cant": "tests use lists of pairs only", "anchors": ["intvalpy/kernel/real_intervals.py:459-471"]}
{"id": "C106", "title": "PSS returns bounds that solutions attain", "statement": "Each bound returned by PSS is attained by a solution of some point system in the data: when no start bound is or contains zero inside and the search ends after the exact subproblems, the returned box is exactly the interval hull of the united solution set.", "quantifier": "all systems with start boxes inside one orthant, all tolerances and maxiter >= 0", "why_tests_cant": "the returned bound must be compared with the true hull, known in closed form for hand-made systems only", "anchors": ["intvalpy/linear/PSS.py: PSS"]}
{"id": "C107", "title": "The sign of the ISPAE objective recognises compatible parameters", "statement": "With the norm inf and positive weights, the function ISPAE.fit minimises is at most zero at a coefficient vector exactly when, for every observation, all values (objective Tol) or some value (objective Uni) of the polynomial model on the input box lie in the output interval.", "quantifier": "all data sets, all polynomial bases, orders and coefficient vectors over the reals", "why_tests_cant": "the condition ranges over all points of the input boxes", "anchors": ["intvalpy/models/ISPAE.py:127-239"]}
{"id": "C108", "title": "Gradients of the Uni and Uss objectives of the regressions", "statement": "Where the function minimised by ISPAE.fit or WILS.fit with objective Uni (or Uss) is affine near the current coefficients, the vector handed to the optimiser is its slope.", "quantifier": "all data, weights, norms and coefficient vectors", "why_tests_cant": "needs differentiability regions of a piecewise function; tests look at fitted coefficients only", "anchors": ["intvalpy/models/ISPAE.py:154-197", "intvalpy/models/WILS.py:30-82"]}
{"id": "C109", "title": "Every step of the optimiser goes against the subgradient", "statement": "For any objective, each point evaluated by ralgb5 after the first is reached from the one evaluated before it by a step that makes a negative scalar product with the subgradient returned there; and with tolg > 0 the quotients v / norm(v) are never taken of a zero vector, so no nan enters the iteration.", "quantifier": "all objectives and starting points of any dimension, all parameters with positive tolg, alpha, h0, q1 and q2", "why_tests_cant": "an invariant of the dilation matrix over unboundedly many iterations for arbitrary objectives", "anchors": ["intvalpy/kernel/ralgb5.py:115-189"]}
{"id": "C110", "title": "What the exit code 3 of the optimiser certifies", "statement": "For a convex objective with subgradients, after the exit code 3 every better point on the line of the last search lies strictly between its ends, two evaluated points less than tolx apart; with one variable every better point at all is within tolx of the last evaluated point and the returned value exceeds the least value by at most tolx times the last subgradient.", "quantifier": "all convex objectives, starting points and parameters", "why_tests_cant": "quantifies over all better points and all convex functions", "anchors": ["intvalpy/kernel/ralgb5.py:163-166"]}
{"id": "C111", "title": "The optimiser converges for one variable", "statement": "Minimising a convex function of one variable with a minimum at most r < 500 h0 away from the start, ralgb5 stops with code 1, 2 or 3 after a number of iterations known in advance from the parameters, r and tolx (60 for the defaults); with the codes 2 and 3 the returned value is least up to the tolerance. With code 1 it is least up to a subgradient times the starting distance shrunk by a fixed rate for each of at least nsims - 1 iterations, so that with the default parameters every exit is accurate to G/100000 + 1e-9 for slopes up to G. In particular Tol.maximize with one unknown stops with that accuracy.", "quantifier": "all convex functions of one variable, all starting points and parameters with q1 <= 1 <= q2, alpha < 500 min(1, q1 q2) and q2/alpha + q2 - 1 <= 1", "why_tests_cant": "termination and rate for all convex functions; a test runs single instances", "anchors": ["intvalpy/kernel/ralgb5.py:95-193", "intvalpy/linear/Tol.py:48-58"]}
{"id": "C112", "title": "The optimiser does not depend on coordinates and units", "statement": "Turning, reflecting, renumbering and shifting the space of the unknowns, and measuring them in another unit (with tolx, h0 and tolg converted), moves the evaluated and the returned points in the same way and leaves value, counts and exit code; multiplying the objective by a positive number (tolg converted) and adding a constant leaves the points.", "quantifier": "all objectives, dimensions, rigid motions, units, factors and constants", "why_tests_cant": "a relation between two runs of unbounded length", "anchors": ["intvalpy/kernel/ralgb5.py:95-193"]}
{"id": "C113", "title": "Comparisons with arrays are answered element by element", "statement": "A comparison (<, <=, ==, !=, >, >=) in which an interval or an interval array takes part, with numbers, numpy scalars, numpy arrays, intervals and interval arrays of fitting shape on either side, gives in every place the comparison of the two endpoints; written the other way round it gives the same. It is known which pairs of kinds raise instead, and with which exception.", "quantifier": "all operators, kinds of operands, lengths and endpoints", "why_tests_cant": "ten dispatch paths through Python and numpy, each for all lengths; the failing pairs are not tested by the project", "anchors": ["intvalpy/kernel/real_intervals.py:168-208", "intvalpy/kernel/real_intervals.py:323-359", "intvalpy/kernel/interval_arithmetics.pyx:207-253", "intvalpy/kernel/interval_arithmetics.pyx:387-388"]}
{"id": "C114", "title": "Assignment to elements of an interval array", "statement": "A[key] = value stores in the places named by the key the intervals of the value (one interval or number everywhere, the items of arrays and lists in order, numbers as degenerate intervals) and leaves all the other places; every place of the array holds an interval afterwards. It is known exactly when it raises.", "quantifier": "all arrays, integer keys, selections of positions and values", "why_tests_cant": "states the untouched elements and all combinations of keys and values", "anchors": ["intvalpy/kernel/real_intervals.py:220-229"]}
{"id": "C115", "title": "A loop over an interval array gives the elements of indexing", "statement": "for x in A gives the objects A[0], A[1], ..., and reversed(A) gives them from the end.", "quantifier": "all arrays with one or two axes", "why_tests_cant": "kinds of the objects for all arrays; the project never loops over a matrix", "anchors": ["intvalpy/kernel/real_intervals.py:24-25", "intvalpy/kernel/real_intervals.py:148-149", "intvalpy/kernel/real_intervals.py:213-218"]}
{"id": "C116", "title": "With bias=True ISPAE adds a constant term to the model", "statement": "For every number c there is a value of the bias coefficient with which the interval value of the model on every box of inputs is exactly the range of c plus the polynomials of the other columns; with one input column of order N the models with bias are exactly the polynomials of degree at most N, each for one vector of coefficients. False for the basis 'laguerre': the bias column is the first basis polynomial at 1, which is 1 - 1 = 0 for Laguerre, so the bias coefficient has no effect whatever and no nonzero constant can be represented.", "quantifier": "all bases, orders, coefficients and boxes of inputs; for the counterexample all coefficients", "why_tests_cant": "linear independence of the bases and ranges over all boxes; a test with the default basis never sees the lost column", "anchors": ["intvalpy/models/ISPAE.py:18-42", "intvalpy/models/ISPAE.py:296-319", "intvalpy/models/ISPAE.py:146-157"]}
{"id": "C117", "title": "ISPAE.fit: when it returns, what it reports and what a nonnegative value means", "statement": "fit returns exactly when there are observations and a column, the outputs, given weights and given orders have the right number of entries, no input interval is improper, all orders are at least 1, a given x0 has one entry per coefficient and the objective and the norm are documented ones. Then fr is the value, at the coefficients xr, of the functional: the least (norm 'inf') or the sum (norm 'l1') over the observations of weight times (radius of the output minus the largest ('Tol') or least ('Uni') distance of the values of the model on the box of inputs from the midpoint of the output); it is at least the value at the initial guess. With positive weights, 0 <= alpha < 1, beta > 0 and the norm 'inf', fr >= 0 exactly when the fitted model is compatible with every observation: all its values ('Tol') or some value ('Uni') on the box of inputs lie in the output. predict on a box encloses all values of the fitted model there.", "quantifier": "all data, orders, bases, weights, initial guesses and parameters of the optimiser; exact arithmetic for fit, every rounding for predict", "why_tests_cant": "quantifies over the whole optimisation and over all points of the boxes", "anchors": ["intvalpy/models/ISPAE.py:264-393"]}
{"id": "C118", "title": "WILS.fit: when it returns, what it reports and what a nonnegative value means; predictions", "statement": "fit returns exactly when there are observations, one weight per observation if weights are given, and the objective and the norm are known ones. Then fr is the value of the functional at xr (the sum of its constituents for the norm 'l1') minus the penalty of the constraint there, and at least this quantity at the initial guess. With positive weights, 0 <= alpha < 1, beta > 0 and the norm 'inf', fr >= 0 without a constraint exactly when the fitted parameters are compatible with all observations (in the tolerable set for 'Tol', in the united set for 'Uni' and 'Uss'), and with a constraint fr >= 0 still certifies it. Compatibility can be read off the predictions for the training data: all contained in the outputs for 'Tol', all meeting the outputs for 'Uni' and 'Uss'. Predictions enclose A' xr for every point row A' of the test row, for every rounding.", "quantifier": "all training data, weights, objectives, norms, constraints, initial guesses and optimiser parameters", "why_tests_cant": "quantifies over the whole optimisation, all point systems and all rows", "anchors": ["intvalpy/models/WILS.py:85-147"]}
{"id": "C119", "title": "A printed interval can be read as an enclosure", "statement": "The interval read off the text that an interval prints (repr, six significant digits for each endpoint) contains the interval.", "quantifier": "all intervals with finite float endpoints, all integer endpoints", "why_tests_cant": "rounding in the seventh digit depends on the endpoint; tests print a few short decimals, for which the text is exact", "anchors": ["intvalpy/kernel/interval_arithmetics.pyx:189-190"]}
{"id": "C120", "title": "An endpoint that is not a number is not lost", "statement": "If an endpoint of an operand of + - * /, of intersection, of exp, log, sqrt, sin, cos, abs or a positive natural power is NaN and the operation returns, an endpoint of the result is NaN: bad data do not turn into an ordinary looking interval. In particular Interval(nan, nan), which the tests of the project use for the empty set, gives a result with NaN ends.", "quantifier": "for all intervals of both classes with int or float ends (finite, infinite, NaN) and every rounding mode", "why_tests_cant": "The tests only use intervals with both ends NaN; a NaN in one end only, in each position and for each class, is not tried.", "anchors": ["intvalpy/kernel/interval_arithmetics.pyx:392-464", "intvalpy/kernel/interval_arithmetics.pyx:505-514", "intvalpy/kernel/interval_arithmetics.pyx:552-615"]}
{"id": "C121", "title": "A natural power encloses the powers even when pow ignores the rounding mode", "statement": "If the C function pow used for float endpoints is only accurate to one unit in the last place, in whatever rounding mode, then X ** n still contains x ** n for every x in X.", "quantifier": "for all ordinary intervals with finite ends, all exponents n >= 0, all rounding modes and every accurate pow", "why_tests_cant": "The platform on which the tests run has one particular pow; the tests use exponents and ends for which the power is exact.", "anchors": ["intvalpy/kernel/interval_arithmetics.pyx:469-478"]}
{"id": "C122", "title": "PPS always ends: the propagation of the derivative signs comes to rest", "statement": "The inner loop of PPS that propagates known signs of derivatives (W, s, t) ends after at most 2 n + 1 passes, also when the tags contradict each other; in the rows and columns it visited W is the product of the signs s and t, elsewhere nothing changes, and no sign that was already known is changed except that of the row of the chosen entry. So PPS returns or raises after finitely many operations for every input.", "quantifier": "for all n, all tags in {-1, 0, 1}, all choices of an entry or of a row; for PPS all square systems, tolerances, limits and results of inv and solve", "why_tests_cant": "A loop without a counter that does not end shows only as a test that hangs, and only for the rare combination of tags that causes it; there are 3^(n^2 + 2n) combinations.", "anchors": ["intvalpy/linear/PPS.py:86-159", "intvalpy/linear/PPS.py:242-314", "intvalpy/linear/PPS.py:196-353"]}
{"id": "C123", "title": "HBR with a matrix of right-hand sides encloses column by column", "statement": "When b is a two-dimensional array, column k of HBR(A, b) contains every x with A0 x = b0 for some A0 in A and some b0 in column k of b, as it does when the column is passed alone.", "quantifier": "for all n, all numbers of columns, all strongly regular interval matrices A and all interval right-hand sides; exact arithmetic and exact matrix inverses", "why_tests_cant": "No call of HBR in the library or its tests passes a matrix, so the branch has never been executed by a test; whether its formula holds for every system is a statement about all matrices.", "anchors": ["intvalpy/linear/HBR.py:56-59", "intvalpy/linear/HBR.py:49-53"]}
{"id": "C124", "title": "HBR is optimal for systems with midpoint matrix the identity", "statement": "For a strongly regular matrix every end of every component of HBR(A, b) is attained: it is the value of that component in a solution of the preconditioned system with inv(mid A) A and inv(mid A) b. If the midpoint of A is the identity matrix, HBR(A, b) is therefore the smallest box that contains the solution set of A x = b.", "quantifier": "for all n, all strongly regular interval matrices A and all interval vectors b; exact arithmetic and exact matrix inverses", "why_tests_cant": "The smallest box is the range over a nonconvex set of solutions of infinitely many systems; sampling gives inner estimates only and cannot confirm that an end is attained or cannot be improved.", "anchors": ["intvalpy/linear/HBR.py:26-55"]}
{"id": "C125", "title": "A positive computed value of Tol proves tolerability, in spite of rounding", "statement": "If `Tol.value(A, b, x)` as computed in binary64 (outward `A @ x`, but `b.mid` and `b.rad` rounded to nearest) is positive, then x is a tolerable solution of the system with exactly the given A and b: A'x lies in b for every A' in A. The undirected errors of the midpoint and of the radius never turn a non-solution into a positive value.", "quantifier": "for all m x n systems of ordinary intervals, all right-hand sides whose ends are doubles, all nonnegative weights and all x, no overflow", "why_tests_cant": "The errors of b.mid and b.rad are in the last place and depend on the binades of the ends of b; a test would have to hit ends and points of neighbouring grids, and would need exact arithmetic to know the truth.", "anchors": ["intvalpy/linear/Tol.py:13-21", "intvalpy/kernel/interval_arithmetics.pyx:126-147"]}
{"id": "C126", "title": "A negative computed value of Uni proves that the point is not a united solution", "statement": "If `Uni.value(A, b, x)` as computed in binary64 is negative then no A' in A and b' in b satisfy A'x = b'.", "quantifier": "for all systems of ordinary intervals, all right-hand sides whose ends are doubles, all nonnegative weights and all x, no overflow", "why_tests_cant": "The wrong sign only appears when the midpoint and the radius of b are rounded in opposite directions and x is on the boundary of the set.", "anchors": ["intvalpy/linear/Uni.py:13-21", "intvalpy/kernel/interval_arithmetics.pyx:126-147"]}
{"id": "C127", "title": "globopt reaches the tolerance after a number of passes known in advance", "statement": "If the interval extension has a value on every box inside x0, and is narrower than tol on boxes whose widths are at most delta, and each side of x0 is at most delta wide after d_i bisections, then `globopt(func, x0, tol, maxiter)` with maxiter + 2 >= 2^(d_1 + ... + d_n) stops because of the tolerance: it returns a box whose value is narrower than tol.", "quantifier": "for all dimensions n >= 1, all extensions, all start boxes, tolerances and limits, and every rounding whose bisection shrinks the widths by a fixed factor down to delta (shown for exact arithmetic and for binary64)", "why_tests_cant": "A run only shows one function; that the best-first search cannot go on splitting elsewhere for ever needs an argument over the tree of all boxes.", "anchors": ["intvalpy/nonlinear/globopt.py:19-44"]}
{"id": "C128", "title": "Gauss_Seidel converges at the rate of the diagonal dominance", "statement": "In exact arithmetic, let v be positive and the preconditioned matrix C @ A satisfy sum over j != k of mag((C @ A)_kj) v_j <= kappa mig((C @ A)_kk) v_k with kappa <= 1 and zero-free diagonal entries in every row k, and let the start box, of widths at most v_i W, contain a point of the united solution set. Then, if v_i kappa^N W < tol for all i, every maxiter >= N gives the same result. If moreover kappa < 1, tol <= v_i tau and mag((C @ b)_k) <= beta mig((C @ A)_kk) v_k, every number in component i of the returned box is at most v_i (beta + kappa tau) / (1 - kappa) in magnitude, whatever the start box; and if C @ A and C @ b are numbers, it is within v_i kappa tau / (1 - kappa) of the solution. Hence for every H-matrix C @ A there is a number of passes after which a larger maxiter changes nothing.", "quantifier": "for all n, all interval systems with classical entries, all start boxes, tolerances, preconditioners (given, or the computed inverse of the midpoint) and limits", "why_tests_cant": "A test sees one system; the rate and the bounds quantify over all of them and over all start boxes.", "anchors": ["intvalpy/linear/Gauss_Seidel.py:41-73"]}
{"id": "C129", "title": "Krawczyk and HansenSengupta converge to the zero, in the end quadratically", "statement": "In exact arithmetic, for one variable, let func be exact at points, J enclose the slopes of f on every part of x0, and x be a zero in x0. If the enclosures satisfy wid L <= rho |inf L + sup L| with rho < 1, `Krawczyk` with maxiter >= N and rho^N wid x0 <= tol returns an interval of width at most 2 rho tol / (1 - rho) that contains x, the same for all such limits. If no enclosure contains zero, `HansenSengupta` with maxiter >= N + 1 and wid x0 / 2^N <= tol returns an interval of width at most 2 tol that contains x, the same for all such limits. If the width of the enclosure is at most proportional to the width of the argument (relative to its midpoint, or its mignitude), k passes leave a width w with C w <= (C wid x0)^(2^k).", "quantifier": "for all functions, extensions and slope enclosures with these properties, all start intervals, tolerances and limits", "why_tests_cant": "A test observes the widths of a few runs; the rate is a statement on all functions and all numbers of passes.", "anchors": ["intvalpy/nonlinear/external_evaluation.py:9-90"]}
{"id": "C130", "title": "Gauss_Seidel is optimal for interval M-matrices", "statement": "In exact arithmetic, if C @ A (A itself for the unit preconditioner) has entries <= 0 beside a positive diagonal that dominates them with a ratio kappa < 1 in some units v, and the limit on the passes suffices for tol, then the lower ends of the box returned by `Gauss_Seidel` are, up to v_i kappa tau / (1 - kappa) with tol <= v_i tau, the coordinates of one solution of one system in the preconditioned interval system, and so are the upper ends; with the unit preconditioner the box therefore lies, up to that, in every box that contains the united solution set.", "quantifier": "for all sizes, interval M-matrices, right-hand sides, start boxes that contain a solution, tolerances and limits", "why_tests_cant": "A test sees that the returned box contains sampled solutions; that it is not too large is a statement on all solutions of all systems.", "anchors": ["intvalpy/linear/Gauss_Seidel.py:41-73"]}
{"id": "C131", "title": "The value of a recognising functional is an exact margin", "statement": "In exact arithmetic with positive weights w, t <= Tol.value(A, b, x) exactly when x is a tolerable solution of the system whose right-hand sides are narrowed by t / w_i on both sides (widened when t < 0); t <= Uni.value(A, b, x) exactly when x is in the united solution set of that system, and so is t <= Uss.value as long as the narrowed right-hand sides are not empty. Hence the maximum of Tol (Uni) is the largest t for which the narrowed system has tolerable (united) solutions: a negative maximum says by how much the right-hand sides have to be widened.", "quantifier": "for all interval systems, positive weights, points and numbers t", "why_tests_cant": "The claim is an equivalence over all t and all matrices in A; a test checks signs at a few points.", "anchors": ["intvalpy/linear/Tol.py:13-21", "intvalpy/linear/Uni.py:13-21", "intvalpy/linear/Uss.py:13-21"]}
{"id": "C132", "title": "Recognising functionals are monotone in the data, and ordered", "statement": "In exact arithmetic with positive weights, widening the matrix or narrowing the right-hand side never increases Tol.value; widening the matrix or the right-hand side never decreases Uni.value or Uss.value; at every point Tol <= Uni <= Uss.", "quantifier": "for all pairs of interval systems ordered by inclusion, positive weights and points", "why_tests_cant": "A relation between two calls on all ordered pairs of systems.", "anchors": ["intvalpy/linear/Tol.py:13-21", "intvalpy/linear/Uni.py:13-21", "intvalpy/linear/Uss.py:13-21"]}
{"id": "C133", "title": "Powers with an interval exponent", "statement": "For classical intervals `X` of non-negative numbers and `Y` of moderate size, `X ** Y` succeeds, keeps the rounding mode and, unless the answer is the overflow answer `[inf, inf]`, contains `x ** y` for every positive `x` in `X` and every `y` in `Y`. A base with a negative (or NaN) end raises `ValueError`; a bounded base of non-negative numbers never raises.", "quantifier": "for all pairs of intervals of doubles in the stated range, all members of both, every rounding mode at the call, every libm with the assumed accuracy", "why_tests_cant": "Two continua of members; tests compare a few values and would not notice a lost last bit.", "anchors": ["intvalpy/kernel/interval_arithmetics.pyx:469-484"]}
{"id": "C134", "title": "Comparisons with infinite, NaN and mixed ends", "statement": "On intervals whose ends may be integers, doubles, infinities or NaN: `X <= Y` says that every real member of `X` is below some member of `Y` and every member of `Y` above some member of `X`; `X == Y` that they have the same real members; `X in Y`, `c in Y` mean inclusion and membership; `X < Y` is the strict form of `<=`; an interval with a NaN end is unequal to everything and every other comparison with it is false; `!=` is the negation of `==`.", "quantifier": "for all intervals of integers and doubles (incl. infinities, NaN), all pairs with real members for the set readings", "why_tests_cant": "Infinitely many pairs, and a quantification over all real members on the right-hand side.", "anchors": ["intvalpy/kernel/interval_arithmetics.pyx:199-253"]}
{"id": "C135", "title": "Quotients with infinite ends", "statement": "For classical intervals X and Y whose endpoints may be infinite, X / Y raises ValueError when Y contains zero and otherwise contains every quotient of members.", "quantifier": "all pairs of classical intervals with finite or infinite double endpoints, or integer endpoints below 2^53, all real points, all rounding modes", "why_tests_cant": "the failing pairs need two infinite lower endpoints; a NaN in any other of the four quotients is silently passed over and does no harm, so most tests with infinities succeed", "anchors": ["intvalpy/kernel/interval_arithmetics.pyx: ClassicalArithmetic.__truediv__"]}
{"id": "C136", "title": "Natural powers with infinite ends", "statement": "For a classical interval X with finite or infinite endpoints and a natural number n >= 1, X ** n, when it returns, contains x**n for every member x.", "quantifier": "all classical intervals with endpoints that are integers of any size, doubles or infinities, all n >= 1, all real members, all rounding modes", "why_tests_cant": "parity of the exponent, the position of zero and each infinite end give different cases; a wrong treatment of -inf with an odd exponent shows only for operands that tests hardly contain", "anchors": ["intvalpy/kernel/interval_arithmetics.pyx: ClassicalArithmetic.__pow__"]}
{"id": "C137", "title": "dist in double arithmetic", "statement": "For intervals and interval vectors with finite float endpoints dist is the exact Chebyshev distance rounded to nearest once (inf on overflow); hence it is symmetric, zero exactly for equal endpoints, and has a relative error of at most 2**-53. Integer endpoints of intervals give the exact distance. With other float endpoints the result is NaN exactly if an endpoint is NaN or two corresponding endpoints are the same infinity, and inf if otherwise an endpoint is infinite; nothing is raised.", "quantifier": "all intervals with float or integer endpoints, vectors of any length", "why_tests_cant": "The distance is assembled from rounded operations; that no error accumulates, that it never underflows to zero and how infinities behave are statements about all pairs of doubles.", "anchors": ["intvalpy/kernel/utils.py:14-41"]}
{"id": "C138", "title": "ChebNorm.minimize returns the norm at the returned point", "statement": "ChebNorm.minimize returns a point it evaluated together with ChebNorm.value there (plus the penalty when a linear constraint is given); no evaluated point, the starting point in particular, has a smaller objective. For point matrices, unit weights and one unknown it stops by a tolerance within 60 iterations when the minimum is less than 500 from the start.", "quantifier": "all systems with at least one equation, all weights, constraints, starting points, optimiser parameters, and all answers of the linear programming solver", "why_tests_cant": "an optimiser loop of data-dependent length around an external solver whose answers are arbitrary", "anchors": ["intvalpy/linear/ChebNorm.py: ChebNorm.minimize, calcfg, calcfg_constr, value", "intvalpy/kernel/abstract.py: BaseRecFun.optimize", "intvalpy/kernel/ralgb5.py"]}
{"id": "C139", "title": "ChebNorm depends continuously on the accuracy of the linear programming solver", "statement": "If the solver called by ChebNorm returns points that are within delta (coordinatewise) of exact solutions, ChebNorm.value changes by at most delta * sum |x_j| (times the greatest weight).", "quantifier": "all systems, all points, all accuracies delta and all solvers of that accuracy", "why_tests_cant": "quantifies over the errors of an external interior-point solver; with the exact corner values hard-coded in a test the loss is invisible", "anchors": ["intvalpy/linear/ChebNorm.py: ChebNorm.__calc_opt_A (np.zeros_like(infA)), __calc_lp_on_box"]}
{"id": "C140", "title": "Elementary functions act element by element", "statement": "For a number, an interval, an interval array, an ndarray or a nested list x, ip.sqrt(x), ip.exp(x), ip.log(x), ip.sin(x), ip.cos(x) and ip.sign(x) return a single interval for a single argument and otherwise an array of the shape of x that holds at every multi-index the function of the element found there (of the degenerate interval for a plain number). If the function fails on some element, the exception of the first such element in row-major order is raised; an argument without elements raises ValueError and a ragged list raises TypeError. At every place the result therefore encloses the true values: sin and cos for endpoints up to 2^20, exp for upper endpoints up to 400, log and sqrt for intervals of doubles with a positive part; sign is the exact range.", "quantifier": "all well-formed nested lists of any depth and shape, all elements, all rounding modes, every math library within one neighbour of the true values", "why_tests_cant": "shapes, depths and mixtures of numbers and intervals are unbounded, and which exception surfaces depends on the order of elements", "anchors": ["intvalpy/kernel/elementary_functions.py:7-124", "intvalpy/kernel/real_intervals.py:342-357", "intvalpy/kernel/preprocessing.py:83-108"]}
{"id": "C141", "title": "Rohn refuses a system as empty only if it is empty", "statement": "Rohn(A, b, consistency='tol') returns the exact hull of the tolerable solution set whenever this set is nonempty and bounded, and raises when it is empty; with consistency='uni' it returns the box of the united solution set (an enclosure after a stop by the tolerance), and any other value of consistency raises an exception without looking at the system.", "quantifier": "all systems, all starting points and parameters of the maximisation, all correct linear programming solvers", "why_tests_cant": "whether the inner maximisation ends just below or at zero depends on its whole trajectory; systems whose tolerable set has no interior are the ones test suites avoid", "anchors": ["intvalpy/linear/Rohn.py:45-61", "intvalpy/linear/Rohn.py:92-123", "intvalpy/kernel/abstract.py:34-74", "intvalpy/kernel/ralgb5.py:95-193"]}
{"id": "C142", "title": "globopt reaches its tolerance from boxes with integer endpoints", "statement": "For a start box whose endpoints are Python integers, floats or a mixture, globopt(func, x0, tol, maxiter) still encloses the global minimum, and it still stops because of the tolerance. The widths compared when choosing the component to bisect may be truncated to integers; this at most doubles the number of passes: 2 ^ (d + 1) - 1 are enough where d bisections make all components narrow, and there are boxes that need that many.", "quantifier": "all functions with an interval extension, all numbers of variables, all start boxes with integer endpoints of modulus at most 2^52, all tolerances", "why_tests_cant": "the truncation happens only while the first component keeps two integer endpoints, and it shows only in the number of passes for searches that visit all boxes", "anchors": ["intvalpy/nonlinear/globopt.py:19-44", "intvalpy/kernel/real_intervals.py:70-72"]}
{"id": "C143", "title": "Subdiff: on which side of the equations the result lies", "statement": "With the default full steps (tau = 1) and exact linear algebra every vector X that Subdiff(A, b) returns, converged or stopped by maxiter, satisfies b \u2286 A X in Kaucher arithmetic when A is an ordinary interval matrix; hence a proper X consists of tolerable solutions exactly when it is an exact formal solution. For a dual matrix the inclusion is A X \u2286 b, so that every proper X returned by Subdiff(dual A, b) consists of solutions A'x = b' with A' in A, b' in b.", "quantifier": "all square interval matrices of any size, all right-hand sides (improper ones included), tolerances and iteration limits; dual part: all ordinary matrices and right-hand sides", "why_tests_cant": "the side of the residual is an inequality between piecewise linear functions in every one of the sixteen sign cases of calcSubgrad and for all iterates; residual tests on converged systems see only zeros, and the failing dual systems are those on which the iteration runs in a circle", "anchors": ["intvalpy/linear/Subdiff.py:52-123", "intvalpy/linear/Subdiff.py:137-167"]}
{"id": "C144", "title": "Subdiff: the formal solution is found", "statement": "As documented, whenever A X = b has a formal (algebraic) solution, the vector Subdiff(A, b) returns turns the equations into equalities up to the tolerance. In particular, with full steps, when the formal solution Z of the midpoint system has end for end the signs of the formal solution Y (and no component of Y around zero meets an entry around zero), the returned vector is exactly Y for every tolerance and iteration limit.", "quantifier": "all sizes, ordinary interval matrices and right-hand sides, tolerances, iteration limits", "why_tests_cant": "the iteration is piecewise linear; tests on a few systems converge in some steps, and the circles it can run in, which the code reports in no way, have to be met exactly", "anchors": ["intvalpy/linear/Subdiff.py:30-34", "intvalpy/linear/Subdiff.py:130-167"]}
{"id": "C145", "title": "miranda: True certifies a zero", "statement": "miranda(func, x) answers True only if every continuous map f whose values func encloses has a zero in the box x, for any number of unknowns and with any rounding inside func. The answer is True exactly when the values of func on every pair of opposite faces have opposite signs; with an extension that is sharp on the faces the answer False means that some component of f does not have opposite signs on its faces. The call raises only when func raises.", "quantifier": "all dimensions, boxes with a <= b, interval extensions func, continuous maps f (real and rational endpoints)", "why_tests_cant": "existence of a zero of an arbitrary continuous map in n variables is not observable by running the function; it needs a fixed-point type theorem", "anchors": ["intvalpy/nonlinear/solution_existence.py:4-31"]}
{"id": "C146", "title": "Nonlinear recognizing functionals: sign of the value", "statement": "For a model with interval data, Tol.value is nonnegative exactly when in every row all the values of the model lie in the right-hand side, Uni.value exactly when in every row some value of the model lies in the right-hand side (positive weights, exact arithmetic).", "quantifier": "all numbers of rows, models, ordinary right-hand sides, positive weights", "why_tests_cant": "infinitely many models and data", "anchors": ["intvalpy/nonlinear/recognizing_functional.py:155-163", "intvalpy/nonlinear/recognizing_functional.py:208-216"]}
{"id": "C147", "title": "Nonlinear recognizing functionals: gradient and maximize", "statement": "The vector that calcfg returns with the value is the gradient of the objective wherever that is differentiable, as ralgb5 needs. maximize returns the value of the functional (minus the penalty) at the returned point, at least the value at the start and at every evaluated point.", "quantifier": "all models, interval derivatives, data, weights, points", "why_tests_cant": "a wrong gradient only slows down or stalls the search on some data; tests on positive parameters do not see it", "anchors": ["intvalpy/nonlinear/recognizing_functional.py:167-198", "intvalpy/nonlinear/recognizing_functional.py:220-251"]}
{"id": "C148", "title": "HansenSengupta and Krawczyk: a result inside the start interval proves a zero", "statement": "For one variable, when func encloses f and J encloses its difference quotients: if HansenSengupta returns an interval in the interior of x0 (and further than 1e-15 per pass from its ends), f changes its sign over x0, so a zero exists, it is the only one in x0, and it lies in the result. The same for Krawczyk with maxiter = 0, and with more passes when no slope enclosure contains zero; with enclosures containing zero two passes prove nothing.", "quantifier": "all functions, extensions and slope enclosures, start intervals, tolerances, iteration limits, every outward rounding", "why_tests_cant": "existence of a zero is a statement about all points of the interval; the tolerance 1e-15 of intersection only matters for intervals that almost touch", "anchors": ["intvalpy/nonlinear/external_evaluation.py:9-50", "intvalpy/nonlinear/external_evaluation.py:53-90", "intvalpy/kernel/preprocessing.py:127-133"]}
{"id": "C149", "title": "Laws of the interval operations: associativity, subdistributivity, dual, inclusion", "statement": "In exact arithmetic, for proper and improper intervals: (X*Y)*Z = X*(Y*Z); [1,1] is neutral and [0,0] absorbing; X*(Y+Z) is contained in X*Y + X*Z for proper X, contains it for improper X, equals it for numbers X and whenever Y and Z have ends of one sign; the dual of a sum or product is the sum or product of the duals; sums and products are monotone with respect to inclusion.", "quantifier": "all triples of proper and improper intervals, in all sign configurations", "why_tests_cant": "sign cases of three factors (64 with improper ones) and real ends; the wrong cases need operands of different internal class", "anchors": ["intvalpy/kernel/interval_arithmetics.pyx:414-441", "intvalpy/kernel/interval_arithmetics.pyx:552-572", "intvalpy/kernel/interval_arithmetics.pyx:149-154"]}
{"id": "C150", "title": "A Gauss_Seidel result inside the start box proves that every system has exactly one solution", "statement": "When maxiter >= 0 and the box returned by Gauss_Seidel lies in the interior of the start box (up to the tolerance of the intersections, 1e-15 per pass), every real matrix in A is regular, every system A' x = b' with A' in A and b' in b has exactly one solution, and all these solutions lie in the returned box, wherever they could have been; in particular with the default start box a result in the interior of [-1000, 1000] encloses the whole united solution set. A result that touches the start box proves nothing.", "quantifier": "all n, all systems, all preconditioners, all iteration counts, any rounding (binary64 included), all real matrices and right-hand sides in the intervals", "why_tests_cant": "It quantifies over all real systems within the intervals and needs a fixed-point argument (Poincare-Miranda); a test only tries some point systems.", "anchors": ["intvalpy/linear/Gauss_Seidel.py:41-73", "intvalpy/kernel/preprocessing.py:127-133"]}
{"id": "C151", "title": "Convergence of Rohn's method proves full column rank", "statement": "If the iteration of Rohn(A, b) (consistency 'uni') stops because its tolerance is met, every matrix in A has linearly independent columns, whatever np.linalg.inv returned; for a square system every A' x = b' with A' in A and b' in b then has exactly one solution, and it lies in the returned box. A run that ends by maxiter proves nothing.", "quantifier": "all n >= 1 and m, all ordinary interval data, all tolerances >= 0, all iteration limits, any inverse", "why_tests_cant": "It is a statement on all (uncountably many) matrices in the intervals and on every possible output of the external inverse.", "anchors": ["intvalpy/linear/Rohn.py:64-89"]}
{"id": "C152", "title": "Narrower data give narrower results of @ and Gauss_Seidel", "statement": "Products A @ B and C @ A (C a point matrix) of narrower ordinary interval matrices lie in the products of the wider ones. With a given preconditioner, Gauss_Seidel for a narrower matrix, right-hand side and start box (with a solution in it) returns a box inside the one returned for the wider data.", "quantifier": "all n, all nested data, all preconditioners, all tolerances and iteration limits, any rounding", "why_tests_cant": "Inclusion isotonicity relates two runs on all pairs of nested inputs; a test compares some pairs.", "anchors": ["intvalpy/kernel/real_intervals.py:281-341", "intvalpy/linear/Gauss_Seidel.py:41-73"]}
{"id": "C153", "title": "Widths, magnitudes and distances of results follow from those of the operands", "statement": "For ordinary intervals and exact arithmetic: wid(X+Y)=wid(X-Y)=wid X+wid Y; mid follows sums, differences and multiples; mag(XY)=mag X mag Y, mig(XY)=mig X mig Y, mag(X/Y)=mag X/mig Y; wid(XY) lies between max(mag X wid Y, wid X mag Y) and their sum; dist is invariant under shifts, scales with |c| and dist(XY,XZ) <= mag X dist(Y,Z). With directed rounding results contain the exact ones, so they are at least as wide.", "quantifier": "all ordinary intervals over any ordered field, all factors, any rounding for the last part", "why_tests_cant": "The laws relate characteristics of all pairs of intervals across all sign cases of the product; a test checks single values.", "anchors": ["intvalpy/kernel/interval_arithmetics.pyx:121-147", "intvalpy/kernel/interval_arithmetics.pyx:530-640", "intvalpy/kernel/utils.py:15-37"]}
{"id": "C154", "title": "An answer of HBR proves that the interval matrix is regular", "statement": "If HBR(A, b) returns, every matrix in A is regular (the homogeneous system has only the trivial solution): a matrix that fails the H-matrix check is rejected by the assertion.", "quantifier": "all n, all square interval matrices and right-hand sides, any rounding; exact inverses", "why_tests_cant": "Containing a singular matrix is a condition on uncountably many matrices; the offending inputs for which the wrong test passes start at four unknowns.", "anchors": ["intvalpy/linear/HBR.py:26-55"]}
{"id": "C155", "title": "An answer of Gauss proves that the interval matrix is regular", "statement": "Whether Gauss(A, b) returns depends on A only, and if it returns, every matrix in A is regular: singular matrices are detected by the pivot assertion or by a division.", "quantifier": "all n, all square interval matrices and right-hand sides, any rounding", "why_tests_cant": "Regularity concerns all point matrices inside A, and a test would have to try singular matrices of the right form.", "anchors": ["intvalpy/linear/Gauss.py:25-52"]}
{"id": "C156", "title": "Sums and products keep their laws under rounding", "statement": "In rounded arithmetic sums and products of ordinary intervals are commutative, and changing signs commutes with them (as the rounding is symmetric); sums and products are associative, and X*(Y+Z) is contained in X*Y + X*Z.", "quantifier": "all ordinary intervals, any directed rounding (symmetric for the sign laws), binary64 in particular", "why_tests_cant": "A law quantifies over all triples; rounding differences show only for special operands.", "anchors": ["intvalpy/kernel/interval_arithmetics.pyx:193-194", "intvalpy/kernel/interval_arithmetics.pyx:530-640"]}
{"id": "C157", "title": "Subdiff does not depend on the number type of the right-hand side", "statement": "Subdiff(A, b) returns the same intervals for two right-hand sides whose endpoints have the same values, whether they are stored as Python integers or floats.", "quantifier": "all sizes, matrices, right-hand sides and parameters; exact arithmetic and exact linear solver", "why_tests_cant": "The tests use right-hand sides of one kind; the start is spoiled only by an integer first endpoint followed by fractions, and usually the iteration recovers.", "anchors": ["intvalpy/linear/Subdiff.py:125-167", "intvalpy/kernel/real_intervals.py:27-41"]}
{"id": "C158", "title": "PSS and the number types of the matrix", "statement": "PSS(A, b) returns the same bounds for two matrices whose elements have the same values, whether the endpoints are stored as Python integers or floats; in every case the bounds enclose the united solution set.", "quantifier": "all sizes, matrices, right-hand sides, start boxes, tolerances and iteration limits; exact point quotients, right start estimate", "why_tests_cant": "The tests use matrices of one kind; with an integer in the first row of a column the bounds stay valid and are only wider, which no test of enclosure can notice.", "anchors": ["intvalpy/linear/PSS.py:94-126", "intvalpy/linear/PSS.py:205-224", "intvalpy/kernel/real_intervals.py:27-41"]}
{"id": "C159", "title": "dual, opp, pro and khi for every kind of endpoint", "statement": "For an object whose class fits its ends (classical exactly when inf <= sup), with int or float ends including infinities and NaN: X.dual.dual and X.opp.opp are X, X.opp is -(X.dual), and the class of X.dual and X.opp fits their ends; X.pro keeps a NaN, and without NaN it is an ordered interval containing both ends; X.khi raises only ZeroDivisionError, only for [0, 0], and is otherwise NaN or a number in [-1, 1].", "quantifier": "all intervals of both classes with ints of any size or floats (finite, infinite, NaN), every rounding mode", "why_tests_cant": "NaN in one end, integers above 2^53 that round to the same double, and quotients next to 1 are never sampled.", "anchors": ["intvalpy/kernel/interval_arithmetics.pyx:149-187", "intvalpy/kernel/interval_arithmetics.pyx:193-194"]}
{"id": "C160", "title": "Rohn in double arithmetic", "statement": "With the operations of numpy rounded as they are in the code, Rohn(A, b) that stops because the last change is below tol returns a box that contains the united solution set; in particular it never stops in this way for a matrix containing a singular one.", "quantifier": "all sizes, interval matrices, right-hand sides, tolerances, iteration limits and approximate inverses", "why_tests_cant": "The failing runs look converged: the singular example returns a box of width 8e-12 for a set that is the whole line, after four passes.", "anchors": ["intvalpy/linear/Rohn.py:64-89"]}
{"id": "C161", "title": "Krawczyk and HansenSengupta on unbounded and very wide intervals", "statement": "Krawczyk and HansenSengupta for one unknown never lose a zero: if the user functions enclose f and its slopes, every zero of f in x0 is contained in the returned interval, also when ends of x0 are infinite or so large that their sum overflows; in particular NaN (\"no zeros\") is not returned for an x0 with a zero.", "quantifier": "all enclosing functions, intervals with finite or infinite ends, iteration limits, tolerances", "why_tests_cant": "The loss needs an end that is infinite or near the largest double; all tests and examples use small boxes. The answer NaN looks like a proof that no zero exists.", "anchors": ["intvalpy/nonlinear/external_evaluation.py:9-90"]}
{"id": "C162", "title": "Gauss_Seidel with unbounded start boxes", "statement": "The iteration of Gauss_Seidel keeps every solution for all kinds of ends: if a point system inside the (preconditioned) interval system has a solution in x0, the returned box contains it, also when ends are infinite or products and sums overflow, and the exception \"The united solution set does not intersect the bar X.\" is not raised.", "quantifier": "all sizes, matrices, right-hand sides, start boxes with finite or infinite ends, tolerances, iteration limits, rounding modes", "why_tests_cant": "The wrong exception needs a zero coefficient together with a lower end -inf; the absence of wrong boxes is a statement about all systems, all ends and all passes. The exception reads like a proof that there is no solution.", "anchors": ["intvalpy/linear/Gauss_Seidel.py:57-73", "intvalpy/kernel/preprocessing.py:127-133"]}
