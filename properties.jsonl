{"id": "C01", "title": "Nominal values are computed exactly as plain floats", "statement": "The nominal value of the result of any operator, umath function or wrap()ped function call is, bit for bit, what the underlying float function returns on the nominal values of the arguments; when that float function raises, the call raises the same exception; no earlier read, update or copy changes this.", "quantifier": "every wrapped function f, every supplied derivative, every list of positional and keyword arguments (mixing numbers with uncertainty and plain values), every reachable history of API calls, every float semantics", "why_tests_cant": "the set of functions, argument mixes and histories is infinite; tests sample a few functions at a few points", "anchors": ["uncertainties/core.py: wrap, f_with_affine_output, add_operators_to_AffineScalarFunc, no_complex_result"]}
{"id": "C02", "title": "derivatives[v] is the true partial derivative of the whole calculation", "statement": "For a calculation of any shape (with shared sub-results) built from variables, constants and differentiable operations whose local derivatives are right, y.derivatives[v] is the partial derivative with respect to v, at the nominal values, of the real function computed by the whole calculation (chain rule over the whole graph, exact arithmetic).", "quantifier": "every straight-line program of any length over any number of variables, with arbitrary sharing", "why_tests_cant": "unit tests differentiate a handful of fixed expressions", "anchors": ["uncertainties/core.py: LinearCombination.expand, AffineScalarFunc.derivatives, wrap"]}
{"id": "C03", "title": "Reading a quantity never changes any other result", "statement": "Reading nominal_value, std_dev, derivatives, error_components(), comparing, printing-related reads, covariance_matrix() - in any order and any number of times, on any objects - does not change the nominal value, derivatives, standard deviation, covariances or comparisons observed later on any object (exact arithmetic).", "quantifier": "every history of API calls, every interleaving of reads between them", "why_tests_cant": "internally a read rewrites (expands) a shared lazily evaluated structure; the number of read orders is unbounded", "anchors": ["uncertainties/core.py: LinearCombination.expand, AffineScalarFunc.derivatives"]}
{"id": "C04", "title": "Reading derivatives always terminates", "statement": "In every state reachable through the API, reading derivatives (hence std_dev, ==, covariance_matrix, printing) terminates.", "quantifier": "every reachable state, every object", "why_tests_cant": "the expansion is a worklist loop over a shared graph that grows while it is consumed; tests only cover small graphs", "anchors": ["uncertainties/core.py: LinearCombination.expand"]}
{"id": "C05", "title": "Standard deviation formula with current variable uncertainties", "statement": "y.std_dev is the square root of the sum over all variables v of (derivatives[v] * current v.std_dev)**2, with the std_dev values in force at the time of the read, after any history of updates.", "quantifier": "every reachable state, every object, every history of std_dev updates", "why_tests_cant": "histories of updates and reads are unbounded", "anchors": ["uncertainties/core.py: AffineScalarFunc.std_dev, error_components, Variable.std_dev"]}
{"id": "C06", "title": "Error components add up", "statement": "error_components() has exactly one entry per variable in derivatives, each entry is |derivative * std_dev of the variable| (so non-negative), and the sum of the squares of the entries is std_dev**2.", "quantifier": "every reachable state, every object", "why_tests_cant": "must hold for every expression and every set of variables", "anchors": ["uncertainties/core.py: AffineScalarFunc.error_components"]}
{"id": "C07", "title": "Exact variables contribute nothing, even through an undefined derivative", "statement": "If every variable y depends on has std_dev 0 then y.std_dev is 0, whatever the derivatives (including NaN); if some variable has a non-zero std_dev and a NaN derivative then y.std_dev is NaN.", "quantifier": "every object, every assignment of std_devs and derivatives including NaN", "why_tests_cant": "tests check sqrt(0+/-0) and a few powers only", "anchors": ["uncertainties/core.py: error_components, std_dev, nan_if_exception"]}
{"id": "C08", "title": "Updating a variable's std_dev changes exactly what depends on it", "statement": "Setting x.std_dev = s changes no nominal value and no derivative of any object, changes x.std_dev to s, leaves the std_dev of every other variable unchanged, and leaves unchanged the std_dev, error components and covariances of every object whose derivatives do not contain x.", "quantifier": "every reachable state, every variable, every new value, every other object", "why_tests_cant": "aliasing between objects is unbounded", "anchors": ["uncertainties/core.py: Variable.std_dev (setter), error_components"]}
{"id": "C09", "title": "Negative standard deviations are rejected without side effect", "statement": "ufloat(n, s) and x.std_dev = s raise NegativeStdDev for a negative s and then leave every object unchanged; hence at any time every variable's std_dev is non-negative or NaN.", "quantifier": "every reachable state, every s", "why_tests_cant": "an invariant over all histories; also involves special float values", "anchors": ["uncertainties/core.py: Variable.std_dev (setter), Variable.__init__, NegativeStdDev"]}
{"id": "C10", "title": "Correlations are tracked exactly", "statement": "If two calculations of any shape compute the same real function of the variables near the nominal values, their difference has standard deviation exactly 0 and nominal value exactly 0, and they compare equal (2*x-x-x, x**2-x*x, y-x-x with y=2*x are instances).", "quantifier": "every pair of calculations, exact arithmetic", "why_tests_cant": "infinitely many pairs of equivalent expressions", "anchors": ["uncertainties/core.py: wrap, LinearCombination, eq_on_aff_funcs"]}
{"id": "C11", "title": "Covariance matrix entries", "statement": "covariance_matrix([y1..yn]) is an n x n symmetric matrix whose (i,j) entry is the sum over variables v of dyi/dv * dyj/dv * v.std_dev**2; its diagonal is std_dev**2; it is positive semi-definite; independent variables have covariance 0.", "quantifier": "every reachable state, every list of objects of any length", "why_tests_cant": "must hold for every n and every dependency structure", "anchors": ["uncertainties/core.py: covariance_matrix"]}
{"id": "C12", "title": "covariance_matrix agrees with std_dev on exact variables with undefined derivative", "statement": "The diagonal of covariance_matrix agrees with std_dev**2 for every quantity, including those with a NaN derivative with respect to a variable of zero std_dev.", "quantifier": "every object, derivatives including NaN", "why_tests_cant": "the corner needs a NaN derivative and a zero std_dev at the same time", "anchors": ["uncertainties/core.py: covariance_matrix, error_components"]}
{"id": "C13", "title": "correlated_values reproduces the covariance matrix", "statement": "For every symmetric positive semi-definite matrix C (including null variances) and nominal values, correlated_values(noms, C) returns quantities with those nominal values whose covariance_matrix is exactly C (exact arithmetic, given a correct symmetric eigendecomposition).", "quantifier": "every n, every nominal vector, every PSD matrix, every orthogonal diagonalisation returned by the eigensolver", "why_tests_cant": "continuous, unbounded-dimension input space", "anchors": ["uncertainties/core.py: correlated_values, correlated_values_norm, covariance_matrix"]}
{"id": "C14", "title": "correlated_values_norm reproduces standard deviations and correlations", "statement": "correlated_values_norm([(n_i, s_i)], R) returns quantities with nominal values n_i and covariances s_i*s_j*R_ij for every positive semi-definite R; for an R with negative eigenvalues the covariances are s_i*s_j*(R+)_ij with R+ the positive part of R.", "quantifier": "every n, every pair list, every symmetric matrix R", "why_tests_cant": "continuous, unbounded-dimension input space", "anchors": ["uncertainties/core.py: correlated_values_norm, correlation_matrix"]}
{"id": "C15", "title": "Equality means identical random variable", "statement": "x == y iff the nominal values are equal and every variable with non-zero std_dev has the same derivative in both (equivalently x-y has nominal value 0 and std_dev 0); == is reflexive, symmetric and transitive on quantities with finite values; != is its negation; two distinct variables of equal nominal value with a non-zero std_dev are never equal; x is different from every object that is not a number (== is False, != is True, in both orders). (Exact arithmetic; with floats: C87.)", "quantifier": "every reachable state, every pair/triple of quantities or float constants", "why_tests_cant": "relations over all pairs and triples", "anchors": ["uncertainties/core.py: eq_on_aff_funcs, ne_on_aff_funcs, force_aff_func_args, to_affine_scalar"]}
{"id": "C16", "title": "Order comparisons", "statement": "< and > compare nominal values only and are strict orders; x<=y is (x<y or x==y); <= is reflexive, transitive and antisymmetric with respect to ==, but not total (two independent quantities with equal nominal values are neither <=, nor >=, nor <, nor >); the order comparisons with objects that are not numbers raise TypeError. (Exact arithmetic; with floats: C87.)", "quantifier": "every reachable state, every pair/triple", "why_tests_cant": "relations over all pairs and triples", "anchors": ["uncertainties/core.py: lt_on_aff_funcs, le_on_aff_funcs, gt_on_aff_funcs, ge_on_aff_funcs"]}
{"id": "C17", "title": "Truth value", "statement": "bool(x) is False iff x has nominal value 0 and standard deviation 0.", "quantifier": "every reachable state, every quantity", "why_tests_cant": "all quantities", "anchors": ["uncertainties/core.py: AffineScalarFunc.__bool__"]}
{"id": "C18", "title": "wrap() is transparent without uncertainties", "statement": "A wrapped function called with no argument carrying an uncertainty returns exactly f(*args, **kwargs) (value or exception, of any type), and creates no number with uncertainty.", "quantifier": "every f, every plain argument list", "why_tests_cant": "all functions and arguments", "anchors": ["uncertainties/core.py: wrap, f_with_affine_output"]}
{"id": "C19", "title": "wrap() uses the right derivative, whatever the call history", "statement": "For every wrapped function and every history of calls, the derivative used for positional argument i is the i-th supplied derivative if there is one that is not None, else the numerical derivative with respect to argument i; for keyword argument k it is: for a positional-or-keyword parameter k of index i, the i-th supplied derivative or else the numerical derivative with respect to k; otherwise derivatives_kwargs[k] or else the numerical derivative with respect to k.", "quantifier": "every f, every finite or infinite derivatives_args iterable, every derivatives_kwargs, every sequence of calls", "why_tests_cant": "resolution uses lazily filled caches shared between calls; histories are unbounded", "anchors": ["uncertainties/core.py: wrap, IndexableIter, partial_derivative"]}
{"id": "C20", "title": "Passing an argument by keyword or by position is the same", "statement": "For a parameter that f accepts both ways, calling the wrapped function with the argument given by keyword gives the same nominal value and the same derivatives as giving it by position.", "quantifier": "every f whose value does not depend on how its arguments are passed, every supplied derivative with the same property, every point", "why_tests_cant": "all functions and splits of the argument list", "anchors": ["uncertainties/core.py: wrap, partial_derivative"]}
{"id": "C21", "title": "Numerical derivatives: exactness and error bound", "statement": "In exact arithmetic the automatic numerical derivative uses a strictly positive step, is exact for every function that is a polynomial of degree at most 2 in the shifted argument, and for a three times continuously differentiable function differs from the true derivative by at most step**2/6 times a bound of the third derivative.", "quantifier": "every such function, every point, every step constant > 0", "why_tests_cant": "all functions", "anchors": ["uncertainties/core.py: partial_derivative, STEP_SIZE"]}
{"id": "C22", "title": "One-shot and infinite derivative iterables", "statement": "The derivatives_args given to wrap() may be a one-shot or infinite iterator: in whatever order and however often positional arguments are later found to be uncertain, argument i is always served the i-th element the iterator produced (the numerical derivative with respect to i standing for None), and each element is taken from the iterator at most once.", "quantifier": "every iterator, every sequence of index accesses", "why_tests_cant": "unbounded access histories", "anchors": ["uncertainties/core.py: IndexableIter.__getitem__"]}
{"id": "C23", "title": "Arithmetic operator derivatives", "statement": "At every point where the real function is differentiable, the derivatives used for + - * / // % ** , unary - + abs and trunc, and for all the reflected versions, are the true partial derivatives with respect to each operand; an operand order mix-up is impossible.", "quantifier": "all real operand values where the operator is differentiable", "why_tests_cant": "continuum of points, special cases in pow", "anchors": ["uncertainties/core.py: get_ops_with_reflection, add_operators_to_AffineScalarFunc, pow_deriv_0, pow_deriv_1, nan_if_exception"]}
{"id": "C24", "title": "Mixing plain numbers and uncertain numbers", "statement": "For a plain float a and an uncertain x, the results of a op x and x op a have the nominal value of the float operation, and their derivatives are those of the operation with a held constant - identical to those obtained by first promoting a to an exact number with uncertainty.", "quantifier": "every a, every x, every binary operator", "why_tests_cant": "all operators and values", "anchors": ["uncertainties/core.py: get_ops_with_reflection, wrap, to_affine_scalar"]}
{"id": "C25", "title": "Powers: undefined derivatives", "statement": "For x**y the derivative with respect to x is 0 when y is 0 and the derivative with respect to y is 0 when x is 0 and y>0; where a derivative does not exist although the value does, the derivative is NaN (never an exception) and so the standard deviation is NaN iff that operand is not exact.", "quantifier": "all real x, y for which x**y has a real value", "why_tests_cant": "case analysis over a two-dimensional continuum", "anchors": ["uncertainties/core.py: pow_deriv_0, pow_deriv_1, nan_if_exception; uncertainties/umath_core.py: _deriv_pow_0, _deriv_pow_1"]}
{"id": "C26", "title": "Division never fails where float division succeeds", "statement": "x/y with uncertain operands succeeds whenever the float division of the nominal values succeeds.", "quantifier": "every pair of floats", "why_tests_cant": "needs extreme magnitudes", "anchors": ["uncertainties/core.py: get_ops_with_reflection ('truediv')"]}
{"id": "C27", "title": "umath derivatives", "statement": "For every umath function with an analytical derivative (acos ... tanh, two-argument atan2, copysign, hypot, log, pow), the derivative used is the true derivative with respect to each argument at every interior point of the domain.", "quantifier": "every function of the table, all points of its open domain", "why_tests_cant": "continuum of points", "anchors": ["uncertainties/umath_core.py: fixed_derivatives, log_der0, _deriv_copysign, _deriv_fabs, _deriv_pow_0, _deriv_pow_1"]}
{"id": "C28", "title": "umath: errors in derivatives become NaN", "statement": "If the math function succeeds on the nominal values then the umath function succeeds: a derivative whose evaluation raises ValueError, ZeroDivisionError or OverflowError is replaced by NaN.", "quantifier": "every function, every point", "why_tests_cant": "all boundary points of all functions", "anchors": ["uncertainties/umath_core.py: nan_if_exception wrapping; uncertainties/core.py: nan_if_exception"]}
{"id": "C29", "title": "Locally constant umath functions", "statement": "umath.ceil, floor, isinf, isnan, trunc on an uncertain number return exactly what math returns on the nominal value, as a plain number.", "quantifier": "every argument", "why_tests_cant": "all arguments", "anchors": ["uncertainties/umath_core.py: wrap_locally_cst_func, locally_cst_funcs"]}
{"id": "C30", "title": "fsum, ldexp, modf", "statement": "umath.fsum([x1..xn]) has nominal value fsum of the nominal values and derivative sum of the derivatives, for every n; umath.ldexp(x,i) has derivatives 2**i times those of x; umath.modf(x) returns the fractional part with the derivatives of x and the integer part as a plain number; results do not depend on which quantities were read before.", "quantifier": "every list length, every argument, every history", "why_tests_cant": "all lengths and histories; ldexp/modf branch on an internal representation", "anchors": ["uncertainties/umath_core.py: wrapped_fsum, modf, ldexp"]}
{"id": "C31", "title": "frexp", "statement": "umath.frexp(x) for an uncertain x returns (m, e) with m an uncertain number with nominal value frexp mantissa and derivatives 2**-e times those of x.", "quantifier": "every x", "why_tests_cant": "the value is only observed lazily", "anchors": ["uncertainties/umath_core.py: frexp"]}
{"id": "C32", "title": "Copies of a variable are independent", "statement": "copy.copy(x) and copy.deepcopy(x) of a variable give a new variable with the same nominal value, std_dev and tag, uncorrelated with every existing quantity; later updates of either std_dev do not affect the other.", "quantifier": "every reachable state and later history", "why_tests_cant": "all later histories", "anchors": ["uncertainties/core.py: Variable.__copy__, Variable.__deepcopy__, __hash__"]}
{"id": "C33", "title": "Deep copies of a quantity", "statement": "copy.deepcopy(y) of a derived quantity has the same nominal value and std_dev, depends only on new variables, which correspond one to one to (and copy the std_dev of) the variables y depends on with the same derivatives, and is uncorrelated with every existing quantity.", "quantifier": "every reachable state, every y whatever its expansion state and internal sharing", "why_tests_cant": "sharing in the internal graph is unbounded", "anchors": ["uncertainties/core.py: AffineScalarFunc.__deepcopy__, LinearCombination.__getstate__/__setstate__"]}
{"id": "C34", "title": "Pickling together preserves correlations", "statement": "Unpickling a list of quantities pickled together gives quantities with the same nominal values, std_devs and mutual covariances (hence the same == between them), independent from all existing quantities.", "quantifier": "every reachable state, every list", "why_tests_cant": "object graphs of any shape", "anchors": ["uncertainties/core.py: __getstate__, __setstate__, LinearCombination"]}
{"id": "C35", "title": "First significant digit", "statement": "The decimal exponent that formatting attributes to a value v is the unique integer d with 10**d <= |v| < 10**(d+1) for v != 0, and 0 for v = 0 (exact arithmetic).", "quantifier": "all values", "why_tests_cant": "all magnitudes", "anchors": ["uncertainties/core.py: first_digit"]}
{"id": "C36", "title": "Number of significant digits of the uncertainty", "statement": "Rounding a value at the limit computed for n significant digits displays exactly n significant digits: the rounded value divided by 10**limit is an integer with exactly n digits, including when rounding carries into a new digit (9.96 -> 10.0).", "quantifier": "all non-zero values, all n >= 1", "why_tests_cant": "carry cases over all magnitudes", "anchors": ["uncertainties/core.py: signif_dgt_to_limit"]}
{"id": "C37", "title": "Particle Data Group rule", "statement": "With no explicit precision the three leading digits of the uncertainty decide: 100-354 gives two significant digits, 355-949 one, 950-999 gives two digits of the uncertainty rounded up to 1000; this depends only on the leading digits (scale invariance).", "quantifier": "all positive values", "why_tests_cant": "all magnitudes, three regimes", "anchors": ["uncertainties/core.py: PDG_precision"]}
{"id": "C38", "title": "Nominal value and uncertainty are printed to the same decimal place", "statement": "Whenever the uncertainty is finite and non-zero and the nominal value finite, the printed nominal value and uncertainty have the same number of digits after the decimal point and the same exponent.", "quantifier": "all values, all accepted format specifications", "why_tests_cant": "product of values and formats is infinite", "anchors": ["uncertainties/core.py: __format__, format_num"]}
{"id": "C39", "title": "Printing then parsing: +/- notation", "statement": "For finite nominal value and finite non-zero std_dev, any non-LaTeX, non-% format without thousands separator and without special fill gives a string that ufloat_fromstr parses back to exactly the printed (rounded) nominal value and uncertainty - with or without factored exponent, with or without width, in plain or pretty-print (P) mode, with or without p.", "quantifier": "all values, precisions, exponents, widths and options", "why_tests_cant": "product of values and formats is infinite", "anchors": ["uncertainties/core.py: __format__, format_num, str_to_number_with_uncert, to_float"]}
{"id": "C40", "title": "Printing then parsing: shorthand notation", "statement": "Same for the shorthand notation (option S), including when the uncertainty straddles the decimal point and when it is rounded to zero.", "quantifier": "all values, precisions, exponents", "why_tests_cant": "product of values and formats is infinite", "anchors": ["uncertainties/core.py: format_num, parse_error_in_parentheses"]}
{"id": "C41", "title": "Printed value is within half a unit of the last printed digit", "statement": "The number denoted by the printed nominal value (resp. uncertainty) differs from the nominal value (resp. from the uncertainty, or its PDG-rounded value) by at most half a unit of the last printed digit.", "quantifier": "all values and formats", "why_tests_cant": "product of values and formats is infinite", "anchors": ["uncertainties/core.py: __format__, format_num"]}
{"id": "C42", "title": "Common exponent", "statement": "In the e/E formats with at least one finite value the exponent used for both mantissas is the decimal exponent of the larger of |nominal| and std_dev after rounding at the displayed precision, so that its displayed mantissa has exactly one non-zero digit before the decimal point (when it is not zero); in g/empty formats an exponent is used iff that exponent is < -4 or the displayed precision limit is above the units digit.", "quantifier": "all values and formats", "why_tests_cant": "product of values and formats is infinite", "anchors": ["uncertainties/core.py: __format__"]}
{"id": "C43", "title": "Zero uncertainty is printed as an exact 0", "statement": "An uncertainty that is exactly zero is printed as the integer 0 (no decimal point, no exponent attached) in every format, and a non-zero finite one is never printed as a bare integer 0 in the default format.", "quantifier": "all nominal values, all formats", "why_tests_cant": "product of values and formats is infinite", "anchors": ["uncertainties/core.py: format_num"]}
{"id": "C44", "title": "Float precision kept for exact numbers", "statement": "For a number with zero or NaN uncertainty the requested precision p of a g/G/empty format ('.pg') is applied to the nominal value as for a float.", "quantifier": "all p, all values", "why_tests_cant": "depends on the generated inner format specification for every p", "anchors": ["uncertainties/core.py: format_num (fmt_suffix_n)"]}
{"id": "C45", "title": "Shorthand parsing", "statement": "ufloat_fromstr of sign digits.digits(uncertainty)exponent gives nominal value = decimal value * 10**exponent and uncertainty = value in parentheses if it contains a decimal point, else that integer in units of the last digit of the nominal value; with no parentheses the uncertainty is one unit of the last digit.", "quantifier": "all digit strings, signs, exponents", "why_tests_cant": "infinite set of strings", "anchors": ["uncertainties/core.py: parse_error_in_parentheses, NUMBER_WITH_UNCERT_RE_STR"]}
{"id": "C46", "title": "Parsing with a factored exponent", "statement": "ufloat_fromstr('(N +/- U)eX') multiplies both N and U by 10**X, and more generally the factored exponent applies to whatever is between the parentheses.", "quantifier": "all contents and exponents", "why_tests_cant": "infinite set of strings", "anchors": ["uncertainties/core.py: str_to_number_with_uncert, NUMBER_WITH_UNCERT_GLOBAL_EXP_RE_MATCH"]}
{"id": "C47", "title": "Invalid strings are rejected with ValueError", "statement": "For every string, ufloat_fromstr either returns a number or raises ValueError; characters that are not part of a documented form are never silently ignored.", "quantifier": "all strings", "why_tests_cant": "infinite set of strings", "anchors": ["uncertainties/core.py: ufloat_fromstr, str_to_number_with_uncert, to_float"]}
{"id": "C48", "title": "Superscript exponents round trip", "statement": "Converting any integer to superscript characters and back gives the same integer.", "quantifier": "all integers", "why_tests_cant": "infinite set", "anchors": ["uncertainties/core.py: to_superscript, nrmlze_superscript, TO_SUPERSCRIPT"]}
{"id": "C49", "title": "repr round trip", "statement": "ufloat_fromstr(repr(x)) gives back exactly the nominal value and std_dev of x (given that float(repr(v)) == v for floats).", "quantifier": "all nominal values and std_devs including NaN and infinities, zero", "why_tests_cant": "all floats", "anchors": ["uncertainties/core.py: AffineScalarFunc.__repr__, str_to_number_with_uncert"]}
{"id": "C50", "title": "Concurrent reads", "statement": "Two threads reading std_dev (or derivatives) of the same fresh quantity at the same time both obtain the value a single thread would obtain, and the quantity is left intact.", "quantifier": "all interleavings of the two readers", "why_tests_cant": "interleavings cannot be enumerated by unit tests", "anchors": ["uncertainties/core.py: LinearCombination.expand"]}
{"id": "C51", "title": "Interrupted reads", "statement": "If reading derivatives is interrupted by an asynchronous exception (KeyboardInterrupt, MemoryError) at any point, a later read still returns the right derivatives.", "quantifier": "every interruption point", "why_tests_cant": "crash points", "anchors": ["uncertainties/core.py: LinearCombination.expand"]}
{"id": "C52", "title": "Array access functions", "statement": "unumpy.nominal_values / std_devs return, element by element and with the same shape, the nominal value / standard deviation of uncertain elements, and the element itself / 0 for plain ones; uarray(n, s) then nominal_values and std_devs give back n and s, with independent elements.", "quantifier": "all arrays of any shape and content", "why_tests_cant": "all shapes and mixes", "anchors": ["uncertainties/unumpy/core.py: nominal_values, std_devs, uarray"]}
{"id": "C53", "title": "Matrix inverse with uncertainties", "statement": "ulinalg.inv(A) has the inverse of the nominal matrix as nominal value, and its derivatives are those of the matrix inverse: A*inv(A) has nominal value identity and all its elements have standard deviation 0.", "quantifier": "all dimensions, all invertible nominal matrices, all dependency structures", "why_tests_cant": "continuous, unbounded-dimension input space", "anchors": ["uncertainties/unumpy/core.py: inv_with_derivatives, func_with_deriv_to_uncert_func"]}
{"id": "C54", "title": "Matrix pseudo-inverse with uncertainties", "statement": "The derivative formula used by ulinalg.pinv is the only one compatible with the four Moore-Penrose equations along any differentiable family of matrices of constant rank; for an invertible matrix it coincides with the derivative used by inv.", "quantifier": "all dimensions, all real matrices, all derivative directions", "why_tests_cant": "continuous, unbounded-dimension input space", "anchors": ["uncertainties/unumpy/core.py: pinv_with_derivatives"]}
{"id": "C55", "title": "unumpy function names", "statement": "unumpy exposes each math function under its NumPy name (arccos, arcsinh, ...).", "quantifier": "all functions of the table", "why_tests_cant": "a finite table, but not tested", "anchors": ["uncertainties/unumpy/core.py: define_vectorized_funcs"]}
{"id": "C56", "title": "Standard score", "statement": "x.std_score(v) is (v - nominal)/std_dev, so nominal + score*std_dev = v; it raises ValueError iff std_dev is zero.", "quantifier": "all quantities and values", "why_tests_cant": "all values", "anchors": ["uncertainties/core.py: AffineScalarFunc.std_score"]}
{"id": "C57", "title": "No silent conversion to a plain number", "statement": "float(x), int(x), complex(x) always raise TypeError, and the message names the conversion that was attempted.", "quantifier": "all quantities, all conversions", "why_tests_cant": "all quantities", "anchors": ["uncertainties/core.py: add_operators_to_AffineScalarFunc (coercions)"]}
{"id": "C58", "title": "Scaling, shift and independence laws of the uncertainty", "statement": "std_dev(c*x) = |c| std_dev(x); std_dev(x+c) = std_dev(x); std_dev(x+y)**2 = std_dev(x)**2+std_dev(y)**2 when x and y share no variable; in general |std_dev(x)-std_dev(y)| <= std_dev(x+y) <= std_dev(x)+std_dev(y).", "quantifier": "all quantities in all reachable states", "why_tests_cant": "all pairs", "anchors": ["uncertainties/core.py: std_dev, wrap, operators"]}
{"id": "C59", "title": "Obsolete ufloat forms", "statement": "ufloat((n, s)), ufloat((n, s), tag), ufloat(string), ufloat(string, tag) build the same variable (nominal value, std_dev, tag) as the modern ufloat(n, s, tag) / ufloat_fromstr(string, tag), and ufloat(n) alone raises.", "quantifier": "all arguments", "why_tests_cant": "dispatch relies on exceptions raised by partially executed constructors", "anchors": ["uncertainties/core.py: ufloat, ufloat_obsolete"]}
{"id": "C60", "title": "1to2 code updates preserve meaning", "statement": "The 1to2 fixers rewrite obsolete calls into modern calls that build the same value, running them again changes nothing, and no obsolete call remains in the updated program.", "quantifier": "all call expressions matching the fixers' patterns", "why_tests_cant": "infinite set of programs", "anchors": ["uncertainties/lib1to2/fixes/fix_ufloat.py", "uncertainties/lib1to2/fixes/fix_std_dev.py", "uncertainties/lib1to2/fixes/fix_std_devs.py", "uncertainties/lib1to2/fixes/fix_uarray_umatrix.py"]}
{"id": "C61", "title": "Array functions through numerical differentiation", "statement": "A function wrapped with unumpy's array wrapper returns the function of the nominal values, depends only on variables present in the input array and, in exact arithmetic, has exact derivatives when the function is affine.", "quantifier": "all arrays, all affine functions", "why_tests_cant": "all dimensions", "anchors": ["uncertainties/unumpy/core.py: wrap_array_func, array_derivative"]}
{"id": "C62", "title": "Format specifications mean what is documented", "statement": "A format specification [[fill]align][sign][0][width][,][.precision][u][type][options] is read as these parts, whatever they are; everything that is accepted has this form (up to a fill character without alignment and a final newline); anything else raises ValueError.", "quantifier": "all format specification strings", "why_tests_cant": "infinite set of strings, read by a regular expression with optional and lazy parts", "anchors": ["uncertainties/core.py: __format__ (regular expression)"]}
{"id": "C63", "title": "The requested precision is honoured", "statement": "For finite values with a non-zero uncertainty: .pf prints p decimals, .pe p decimals in the mantissas, .pg p significant digits for the larger of the printed values, .nu n significant digits for the uncertainty (even when rounding adds a digit), and no precision the number of digits of the rules of the Particle Data Group; f formats never hide digits before the decimal point.", "quantifier": "all values, precisions, formats", "why_tests_cant": "product of values and formats is infinite; carries on rounding", "anchors": ["uncertainties/core.py: __format__, signif_dgt_to_limit, PDG_precision"]}
{"id": "C64", "title": "Layout of printed numbers", "statement": "The formatted string has the requested layout: the fields of the nominal value and of the uncertainty (or of the whole shorthand notation) have at least the requested width, with the requested fill character and alignment; zero padding, sign and thousands separators are as requested; the common exponent is factored with parentheses when there is no width and repeated otherwise; LaTeX and pretty-print forms use their own symbols; a percent sign ends the string.", "quantifier": "all nominal values and nonnegative uncertainties, finite or not, all format specifications", "why_tests_cant": "product of values and format specifications is infinite", "anchors": ["uncertainties/core.py: format_num, robust_align, __format__"]}
{"id": "C65", "title": "Formatting never fails", "statement": "A valid format specification always gives a string, whatever the nominal value and the (non-negative) standard deviation, including infinities, NaN and zero; an invalid one always raises ValueError.", "quantifier": "all values, all format specifications", "why_tests_cant": "product of values and format specifications is infinite; failures come from combinations", "anchors": ["uncertainties/core.py: __format__, format_num, robust_align"]}
{"id": "C66", "title": "Copies of containers", "statement": "Copying a list of numbers with uncertainties with copy.deepcopy gives numbers with the same nominal values and standard deviations, independent from the originals, and the same object for elements that were the same object; correlations between the elements of the list are kept.", "quantifier": "all lists of quantities in all histories", "why_tests_cant": "correlations depend on the history that produced the quantities", "anchors": ["uncertainties/core.py: AffineScalarFunc.__deepcopy__, Variable.__copy__, Variable.__deepcopy__"]}
{"id": "C67", "title": "Hashing", "statement": "Every number with uncertainty is hashable; its hash never changes, whatever is done with it; numbers that are equal have equal hashes, so that variables can be used as dictionary keys and are distinguished by identity.", "quantifier": "all quantities of all histories; all sequences of dictionary operations", "why_tests_cant": "hash/equality consistency is a universal law over pairs of objects and over later mutations", "anchors": ["uncertainties/core.py: Variable.__hash__, AffineScalarFunc.__eq__"]}
{"id": "C68", "title": "Pickling and copying of user-defined subclasses", "statement": "Objects of any class derived from the classes of the package can be pickled: unpickling gives an object of the same class with the same slot attributes, the same attributes and the same __dict__, including items hidden by slots, without sharing with the original; copy.copy also gives the same attributes.", "quantifier": "all classes (slots, dictionaries, orders of resolution) and all objects of these classes", "why_tests_cant": "the test suite checks a few class hierarchies; the claim is about every one", "anchors": ["uncertainties/core.py: AffineScalarFunc.__getstate__, AffineScalarFunc.__setstate__"]}
{"id": "C69", "title": "Copying the results of long calculations", "statement": "copy.deepcopy and pickle work for the results of calculations of any length, as reading the derivatives and the standard deviation does, within Python's limit on recursions.", "quantifier": "all histories, all limits on recursion", "why_tests_cant": "the length of the calculation is unbounded", "anchors": ["uncertainties/core.py: LinearCombination.expand, __getstate__, AffineScalarFunc.__deepcopy__"]}
{"id": "C70", "title": "Correlation matrix", "statement": "correlation_matrix gives covariances divided by the two standard deviations (NaN for exact quantities): the matrix is symmetric, with 1 on the diagonal, elements between -1 and 1, 0 for independent quantities, and 1 or -1 exactly for quantities linked by an affine relation with a positive or negative slope.", "quantifier": "all lists of quantities in all histories (real arithmetic)", "why_tests_cant": "universal over histories and correlations", "anchors": ["uncertainties/core.py: correlation_matrix, covariance_matrix"]}
{"id": "C71", "title": "Rounding errors of derivatives and standard deviations", "statement": "With floating-point arithmetic, where each operation is rounded, the derivatives, the error components and the standard deviations that are read are within an explicit bound of their exact values (the real-number chain rule applied to the partial derivatives of each operation). The bound depends on the expressions only, not on what is read or when: two programs that differ only by what they read get derivatives that differ by at most twice the bound.", "quantifier": "all histories (copies included; for the comparison of two programs, without copies), all expressions, all floating-point arithmetics that satisfy the standard model of rounding, with unit roundoff u and underflow unit eta", "why_tests_cant": "universal over histories, expression shapes and floats; the order of the operations that the package does depends on what was read before", "anchors": ["uncertainties/core.py: LinearCombination.expand, AffineScalarFunc.derivatives, error_components, std_dev"]}
{"id": "C72", "title": "Work needed for reading a result", "statement": "Uncertainties are calculated when they are read. The number of terms handled when reading the standard deviation or the derivatives of a result is at most the number that the text of the program tells (one per operand, plus what each operand takes); it is at most the number of operands of the program if each result that is not a variable is used at most once, and zero if the result was already read.", "quantifier": "all programs without copies (any length, any sharing, any reads)", "why_tests_cant": "a bound on the amount of work for all programs; timings of a few examples do not give it, and the exponential cases are rare", "anchors": ["uncertainties/core.py: LinearCombination.expand, AffineScalarFunc.derivatives, std_dev, f_with_affine_output"]}
{"id": "C73", "title": "Concurrent calls of the same function", "statement": "When several threads calculate with numbers with uncertainties at the same time (operators or functions made by wrap()), each of them gets the results that it would get if the calls were made one after the other, and all the later results of the program are the same too. A call never waits for another thread.", "quantifier": "all histories, all numbers of threads, all functions and arguments, all schedules", "why_tests_cant": "universal over schedules; a test cannot force a switch of threads at a given instruction", "anchors": ["uncertainties/core.py: IndexableIter.__getitem__, wrap, f_with_affine_output"]}
{"id": "C74", "title": "Interrupted calls", "statement": "A calculation that is interrupted (for instance by KeyboardInterrupt) at any point leaves no trace: all that the program does afterwards gives what it would give if the call had only raised an exception.", "quantifier": "all histories, all functions and arguments, all points of interruption, all later programs", "why_tests_cant": "universal over the points of interruption", "anchors": ["uncertainties/core.py: IndexableIter.__getitem__, wrap, f_with_affine_output"]}
{"id": "C75", "title": "Numbers shown next to a special value", "statement": "When the uncertainty is zero, infinite or NaN (or when the nominal value is infinite or NaN), the other number is still shown correctly by the general formats: with no format type, exactly (as repr does); with g or G, rounded to 6 significant digits, whatever its size, including when the rounding changes its exponent.", "quantifier": "all nominal values and uncertainties, one of them being special, all format specifications of type g, G or none", "why_tests_cant": "infinitely many values and specifications; rounding carries", "anchors": ["uncertainties/core.py: format_num, __format__"]}
{"id": "C76", "title": "Formatting despite floating-point rounding", "statement": "The promises of formatting hold for floats and not only for exact decimal numbers: the printed nominal value and uncertainty have the same decimals and the same exponent, each is the stored number rounded at the last printed digit (up to a relative error of 1e-13), the number of digits is the one asked for by .nu, .pf, .p%, .pe or by the rules of the Particle Data Group, and the exponent is that of the larger of the numbers, and the text is laid out (width, fill, zero padding, thousands separators, sign, LaTeX and pretty-print styles) as the format specification says. Zero, infinite and NaN values are written as for exact numbers, and the other value is still the stored one rounded at its last digit.", "quantifier": "all nominal values and positive uncertainties between 1e-100 and 1e100 (or a zero nominal value, or a value that is infinite, NaN or a zero uncertainty), all format specifications (precision of at most 11 digits for the layout, 50 for the values in shorthand notation), all floating-point operations with a relative error of 1e-15 and a logarithm that is only wrong just below powers of ten; IEEE doubles are one of them", "why_tests_cant": "the rounding errors of log10, of powers of ten and of divisions matter near boundaries that a sample does not meet", "anchors": ["uncertainties/core.py: __format__, format_num, first_digit, PDG_precision, signif_dgt_to_limit"]}
{"id": "C77", "title": "Parsing despite floating-point rounding", "statement": "ufloat_fromstr accepts the documented notations with floats and not only with exact decimal numbers: the nominal value and the uncertainty that it returns are the written ones up to a relative error of 1e-14. In the notations without a separate exponent (1.25+/-0.03, 1.25(3), 1.25(0.03)), the nominal value is the float nearest to the written number. With a separate exponent, it is not always the nearest one, because the code multiplies the mantissa by a power of ten.", "quantifier": "all strings of the documented notations (signs, spaces, any number of digits, exponents) whose numbers and powers of ten stay between 1e-290 and 1e290, or are zero, infinite or NaN; all floating-point operations with a relative error of 1e-15; for the nearest float, IEEE doubles", "why_tests_cant": "rounding errors depend on all the digits that are written, and nearest floats fail only for some strings", "anchors": ["uncertainties/core.py: ufloat_fromstr, str_to_number_with_uncert, parse_error_in_parentheses, to_float"]}
{"id": "C78", "title": "Printing then parsing with floats", "statement": "A float with uncertainty printed by a readable format specification (no LaTeX without P, no percentage, no thousands separator, no fill character other than a space), then parsed by ufloat_fromstr, comes back as the printed nominal value and uncertainty up to a relative error of 1e-14; the nominal value moves by at most half a unit of the last printed digit, up to rounding errors.", "quantifier": "all nominal values and positive uncertainties between 1e-100 and 1e100 (or a zero nominal value), all readable format specifications (precision of at most 50 in shorthand notation), all floating-point operations with a relative error of 1e-15; IEEE doubles are one of them", "why_tests_cant": "all magnitudes, digits and specifications, with rounding in both directions", "anchors": ["uncertainties/core.py: __format__, format_num, ufloat_fromstr, str_to_number_with_uncert"]}
{"id": "C79", "title": "Printing, parsing and printing again", "statement": "A number with uncertainty that is printed with a readable format specification, parsed by ufloat_fromstr and printed again with the same specification gives the same string: the digits, the exponent and the number of significant digits chosen by the code are stable under its own rounding.", "quantifier": "all nominal values and positive uncertainties (exact decimal arithmetic), all format specifications", "why_tests_cant": "the number of digits and the exponent depend on the values after rounding, with special cases at powers of ten and at the thresholds of the Particle Data Group; a sample does not show that the result is a fixed point for all values", "anchors": ["uncertainties/core.py: __format__, PDG_precision, signif_dgt_to_limit, ufloat_fromstr"]}
{"id": "C80", "title": "Covariance matrices with floating-point arithmetic", "statement": "covariance_matrix() of n numbers is an n by n matrix that is symmetric exactly (not only up to rounding), even with infinite or NaN values. Each finite element differs from the exact covariance (sum over the variables of the products of exact derivatives and variances) by no more than an explicit bound made of the rounding errors of the derivatives, of the three products and of the additions, in whatever order Python iterates over the set of common variables.", "quantifier": "all histories of calculations, reads and updates, all lists of numbers, all floating-point operations that follow the standard model of rounding (IEEE doubles are one of them), all orders of iteration", "why_tests_cant": "rounding errors depend on all the values and on the unspecified order of iteration over a set", "anchors": ["uncertainties/core.py: covariance_matrix"]}
{"id": "C81", "title": "Printing and parsing inside programs", "statement": "What format(x, spec) and repr(x) print is determined by the nominal value and the standard deviation that x has at that time, after all the operations and updates of the program (and by the tag, for repr of a variable with a tag). Printing is invisible: a program shows the same things and later prints the same texts with or without it. ufloat_fromstr(text, tag) is in every respect ufloat(n, s, tag) for the numbers found in the text. The representation of a quantity, parsed back, gives the same nominal value and standard deviation, as a new variable on which nothing else depends: the correlations are lost. The representation of a variable with a tag can never be parsed back.", "quantifier": "all programs (histories of creations, calculations, updates, copies, reads, prints and parses), all quantities, specifications, texts and tags", "why_tests_cant": "printing forces the lazy evaluation of derivatives, whose effect on the rest of the program depends on the whole history; tags and texts are arbitrary", "anchors": ["uncertainties/core.py: AffineScalarFunc.__format__, __str__, __repr__, Variable.__repr__, ufloat_fromstr"]}
{"id": "C82", "title": "Rounding errors in correlation matrices", "statement": "After any history of calculations, correlation_matrix() of n numbers is an n×n matrix, and each finite element (i, j) is the quotient of the covariance by the square roots of the two variances that covariance_matrix() returns, up to an explicit bound (four roundings, and underflow); hence the diagonal is 1 and the matrix is symmetric, up to the bounds. They are not so exactly: diagonal elements can be slightly larger than 1 and the matrix slightly asymmetric.", "quantifier": "all histories, lists of numbers, indices with finite positive variances, and floating-point arithmetics which satisfy the laws of rounding (double precision in particular)", "why_tests_cant": "rounding errors depend on all the numbers; a test compares with a tolerance for a few matrices", "anchors": ["uncertainties/core.py: correlation_matrix, covariance_matrix"]}
{"id": "C83", "title": "Numerical derivatives with floating-point arithmetic", "statement": "When wrap(f) is used without derivatives, the derivative used for an argument x differs from the true derivative of the mathematical function g that f calculates by no more than an explicit bound: (error of the values of f + error on the shifted points × bound of |g'|)/h + h²/6 × bound of |g'''|, plus the rounding of the final result, where the step h is positive: STEP_SIZE*|x| up to rounding, or STEP_SIZE. Positional and keyword arguments, whatever the previous calls.", "quantifier": "all functions with three derivatives near x, evaluated with any bounded error, all arguments, all histories, all floating-point arithmetics which satisfy the laws of rounding (double precision in particular)", "why_tests_cant": "cancellation and truncation errors depend on the function and on the point; a test compares with a tolerance at a few points", "anchors": ["uncertainties/core.py: STEP_SIZE, partial_derivative, wrap, NumericalDerivatives"]}
{"id": "C84", "title": "Calculations with floats are close to exact error propagation", "statement": "For any program that does calculations with +, -, *, /, **, abs() and wrapped functions of one or two arguments (math-like functions such as umath.sqrt, or functions of the user, with or without given derivatives) on ufloat() numbers, floats and previous results (in any order, reading results and changing standard deviations in between), the nominal value of a result is within an explicit bound of the real number that the formula gives; x.derivatives has exactly the variables of the formula as keys, the formula is differentiable with respect to each of them and the values are within an explicit bound of its true partial derivatives; error components, x.std_dev and the elements of covariance_matrix() are within explicit bounds of the values given by the linear theory of error propagation. The rounding errors must be too small to make a divisor vanish or change the sign of the argument of an abs(): otherwise the derivative can be wrong. A wrapped function only needs a stated accuracy for its values and its derivatives on an interval; umath.sqrt has the accuracy of a correctly rounded square root; the accuracy of umath.sin, cos, tan, asin, acos, atan, sinh, cosh, tanh, asinh, acosh, atanh, exp, expm1, log, log10, log1p, erf, erfc, fabs, radians, degrees, hypot, atan2 and copysign and of their derivatives follows from the one of the functions of the math module; a function without derivatives has the accuracy of the numerical derivative. Powers x**n (n a positive integer, any x), x**c and x**y (x positive) have an accuracy that follows from the one of the powers and logarithms of floats.", "quantifier": "all programs made of these operations, all finite values and standard deviations, all variables, all floating-point arithmetics which satisfy the laws of rounding (double precision in particular)", "why_tests_cant": "the formula, its size and the numbers are arbitrary; rounding errors build up with them and a test only compares a few results with a tolerance", "anchors": ["uncertainties/core.py: AffineScalarFunc, LinearCombination.expand, wrap, add_operators_to_AffineScalarFunc, derivatives, error_components, std_dev, partial_derivative", "uncertainties/umath_core.py: wrap_std_functions (fixed_derivatives)"]}
{"id": "C85", "title": "Unrelated calculations do not interfere", "statement": "When several programs (tasks of an event loop, cells of a notebook, callbacks) run in pieces in the same interpreter, each with its own names, after a common beginning, what one of them sees (nominal values, standard deviations, derivatives, error components, covariance matrices, comparisons, tags, errors) is what it would see if it ran alone, up to the identity of the variable objects: variables, wrapped functions, calculations, copies, reads and changes of standard deviations by the others have no influence, as long as the others do not change the standard deviation of a common number.", "quantifier": "all common histories, all numbers of programs, all commands of each program, all orders in which their commands are run", "why_tests_cant": "the interference would come from shared lazy expressions, cached expansions, cached derivatives of wrapped functions or reused identities, for an arbitrary interleaving of arbitrary programs", "anchors": ["uncertainties/core.py: LinearCombination.expand, AffineScalarFunc.derivatives, error_components, std_dev, Variable, wrap, copy, __deepcopy__, __getstate__"]}
{"id": "C86", "title": "Products on the left of a matrix with uncertainties", "statement": "For a unumpy.matrix M, x*M (x being a plain number or a number with uncertainty, possibly correlated with the elements of M) has the product of the nominal values as nominal value, and its derivatives are those of the product; B*M is the matrix product in this order, for nominal values and for derivatives.", "quantifier": "all sizes of matrices, all numbers x and arrays B, all dependences between them, all previous histories", "why_tests_cant": "the sizes, the values and the correlations are arbitrary", "anchors": ["uncertainties/unumpy/core.py: matrix.__rmul__"]}
{"id": "C87", "title": "Comparisons in floating-point arithmetic", "statement": "With floats, after any history: x == y is true exactly when the calculated difference (x - y, or y - x when only y is a variable) has a zero nominal value and a zero standard deviation, and it raises the exception that the standard deviation of the difference raises; x != y is the opposite; x < y and x > y compare the nominal values; x <= y is true if x < y is, and otherwise gives what x == y gives; with a float c instead of y, in both orders, the difference is x - c and c is its own nominal value; bool(x) is x != 0. In double precision, two numbers with the same nominal value and the same derivatives are equal, in both orders (in particular x == x).", "quantifier": "all histories of commands, all pairs of numbers with uncertainties; any float arithmetic for the first part, IEEE doubles for the second one", "why_tests_cant": "the rounding errors of the derivatives depend on the whole expression and on what was read before: a test with a given expression says nothing of another one", "anchors": ["uncertainties/core.py: eq_on_aff_funcs, ne_on_aff_funcs, gt_on_aff_funcs, ge_on_aff_funcs, lt_on_aff_funcs, le_on_aff_funcs, AffineScalarFunc.__bool__, std_dev, LinearCombination.expand"]}
{"id": "C88", "title": "Derivatives that were read are final", "statement": "Once the derivatives of a result were calculated (by reading the derivatives, the error components or the standard deviation), they are the same floats forever, whatever is calculated, copied, pickled, read or changed afterwards; the derivatives of a variable are always {itself: 1}. The derivatives of a wrapped function or of an operation whose operands are variables, plain numbers or results that were read are given by the chain rule with floats: for each variable, 0 plus the product (derivative of the function)*(derivative of the operand) for each operand that depends on this variable, from the last operand to the first one.", "quantifier": "all histories before and after the reading, all wrapped functions and operations, all operands, any float arithmetic (chain rule: arithmetic with bounded rounding errors, which includes IEEE doubles)", "why_tests_cant": "a lazily expanded expression is shared by all the results that use it and is modified in place: the histories that could disturb it are arbitrary", "anchors": ["uncertainties/core.py: LinearCombination.expand, AffineScalarFunc.derivatives, error_components, std_dev, wrap, __getstate__, __deepcopy__"]}
{"id": "C89", "title": "Reading uncertainties while other threads change them", "statement": "If a thread calculates x.error_components() or x.s (x.std_dev, for the result of a calculation) while other threads run any commands (changes of standard deviations, calculations, readings...), the call ends, without exception for the components, and its result is the one that a reading alone would have given at some moment of the call: a consistent snapshot of the standard deviations of the variables.", "quantifier": "all histories, all numbers x, all interleavings of the operations of the call with the commands of other threads", "why_tests_cant": "the result depends on the interleaving of threads: a test runs a few of them, and not the rare ones", "anchors": ["uncertainties/core.py: AffineScalarFunc.error_components, AffineScalarFunc.std_dev, Variable.std_dev (setter)"]}
{"id": "C90", "title": "Covariance matrices calculated while other threads change standard deviations", "statement": "If a thread calculates covariance_matrix(xs) while other threads run any commands (changes of standard deviations, calculations, readings...), the call ends; its result is a square symmetric matrix, with as many lines as there are numbers (or the exception of the square of a standard deviation that a variable had during the call); and this matrix is the one that the call alone would have given at some moment of the call. In particular, nothing changes if the standard deviations of the variables of xs do not change.", "quantifier": "all histories, all lists xs of numbers with uncertainty, all interleavings of the operations of the call with the commands of other threads", "why_tests_cant": "the result depends on the interleaving of threads: a test runs a few of them, and not the rare ones", "anchors": ["uncertainties/core.py: covariance_matrix, Variable.std_dev (setter)"]}
{"id": "C91", "title": "correlated_values with floating-point arithmetic", "statement": "correlated_values_norm([(n_i, s_i)], R) and correlated_values(noms, C), calculated with floating-point numbers, return numbers whose nominal values are exactly the given ones, and whose covariance matrix differs from s_i*s_j*P_ij (P: the matrix that the eigenvalues and eigenvectors found by NumPy represent, without its negative part), respectively from C_ij, by no more than an explicit bound: a relative error of n + 9 roundings of the terms of the sums, the error of the eigendecomposition, the errors of the divisions by the standard deviations, and underflow.", "quantifier": "all histories, all sizes, all nominal values, all matrices of floats (with null variances), all results of the eigensolver, all float types that satisfy the standard model of rounding errors (which includes IEEE doubles)", "why_tests_cant": "tests compare a few matrices with a tolerance chosen by hand: the size of the error depends on the matrix, on its size and on rounding", "anchors": ["uncertainties/core.py: correlated_values, correlated_values_norm, covariance_matrix"]}
{"id": "C92", "title": "Correlation matrices calculated while other threads change standard deviations", "statement": "If a thread calculates correlation_matrix(xs) while other threads run any commands, the call ends; its result is a square matrix with as many lines as there are numbers (or the exception of the square of a standard deviation that a variable had during the call; or ValueError if there is no number); up to rounding, the elements of its diagonal are 1 when the variances that were read are positive, and it is symmetric; and it is the correlation matrix of the numbers at some moment of the call. In particular, nothing changes if the standard deviations of the variables of xs do not change.", "quantifier": "all histories, all lists xs of numbers with uncertainty, all interleavings of the operations of the call with the commands of other threads, all float types that satisfy the standard model of rounding errors (which includes IEEE doubles)", "why_tests_cant": "the result depends on the interleaving of threads and on rounding: a test runs a few of them, and not the rare ones", "anchors": ["uncertainties/core.py: correlation_matrix, covariance_matrix, Variable.std_dev (setter)"]}
{"id": "C93", "title": "Sorting, min() and max()", "statement": "Algorithms that only compare items with < and > (sorted(), list.sort(), min(), max(), bisect, heapq) give with numbers with uncertainty, or with numbers with uncertainty and floats, the same result as with their nominal values, whatever was calculated before and whatever is read or modified at the same time. In particular, sorted() gives all the numbers in the order of their nominal values, and keeps the order of the numbers that have the same nominal value; min() and max() return the first number with the smallest and the largest nominal value. These comparisons change nothing in the numbers.", "quantifier": "all algorithms (trees of comparisons of any size), all lists, all histories, all commands run between the comparisons; finite doubles for sorted(), min() and max()", "why_tests_cant": "there are infinitely many lists and algorithms, and == (which is not used here) does not define a total order with < for numbers with uncertainty", "anchors": ["uncertainties/core.py: AffineScalarFunc.__lt__, AffineScalarFunc.__gt__, lt_on_aff_funcs, gt_on_aff_funcs, force_aff_func_args"]}
{"id": "C94", "title": "Calculations with Python integers", "statement": "Python integers can be used in calculations like floats: 2*x, x/3 - 7, etc. have exactly the nominal values of the same calculation with 2.0, 3.0 and 7.0, and derivatives, standard deviations and covariances that are those of the formula up to rounding errors. Reading derivatives or a standard deviation gives them, or raises an exception every time.", "quantifier": "all programs with +, -, *, /, //, %, **, abs(), copies, updates of standard deviations and readings in any order, all integer constants from -2**53 to 2**53, all doubles", "why_tests_cant": "integers stay integers in the linear combinations, so that their products have any size; the result depends on the order of all the operations and readings", "anchors": ["uncertainties/core.py: LinearCombination.expand, AffineScalarFunc.__init__, AffineScalarFunc.derivatives, get_ops_with_reflection, wrap"]}
{"id": "C95", "title": "Uncertainties have the meaning of the theory of probability", "statement": "Let the values of the variables be random variables of any distribution, whose means and standard deviations are those of the variables and which are not correlated. If a result is an affine function of the variables, however it is calculated, its nominal value is the mean of the result, std_dev is the standard deviation of the result, and covariance_matrix() gives the covariances of the results. For all other results, the same is true to first order: when all uncertainties are multiplied by a number t that tends to 0, the standard deviation of the result divided by t tends to std_dev, the covariances divided by t**2 tend to those of covariance_matrix(), and the mean differs from the nominal value by an amount that is negligible compared to t. The same holds for correlated numbers, for instance those of correlated_values(): if random variables, of any distribution, have the covariance matrix of the numbers that a calculation starts from, then the standard deviations and covariances of the results are those of the results as functions of these random variables, when they are affine (and those of the linear approximations of the results otherwise).", "quantifier": "all programs of calculations (+, -, *, /, **, abs() and wrapped functions, of any length and with shared results), all probability spaces and distributions (bounded ones for the first-order part), exact arithmetic or floats; for correlated numbers: all covariance matrices, all distributions and all calculations", "why_tests_cant": "the distributions are arbitrary, and simulations only estimate means and standard deviations", "anchors": ["uncertainties/core.py: AffineScalarFunc.std_dev, AffineScalarFunc.error_components, AffineScalarFunc.derivatives, covariance_matrix, wrap", "uncertainties/core.py: correlated_values"]}
{"id": "C96", "title": "Calls of functions with side effects by wrap()", "statement": "A call of a wrapped function calls the functions of the user in this order, whatever they do (side effects, different values at each call) and whatever was called before: the function, once, at the nominal values of the arguments; if it returns a number and if some arguments have an uncertainty, then for each of them (by position, then by keyword) the derivative given to wrap(), once, at the nominal values, or else the function at two shifted values of this argument. There is no other call: the function is called once if no argument has an uncertainty or if it does not return a number, and 1+2n times if n derivatives are not given. Arguments without uncertainty are given unchanged. An exception raised by one of these calls stops the sequence and is not caught. The nominal value and the coefficients of the result are calculated with the values returned by these calls.", "quantifier": "all functions and derivatives, with side effects on a state of any type, all positional and keyword arguments, all histories of calls", "why_tests_cant": "the functions, their states and the histories of calls are arbitrary", "anchors": ["uncertainties/core.py: wrap, partial_derivative, NumericalDerivatives, IndexableIter"]}
{"id": "C97", "title": "More uncertain variables never give a more certain result", "statement": "With double-precision floats: if standard deviations of variables (not negative) are increased by assignments to std_dev, the standard deviation of any result, as a float, is not smaller than before, exactly (rounding errors never reverse the comparison). The only exceptions: the new standard deviation is NaN, or it is infinite and the calculation raised OverflowError before.", "quantifier": "all histories, all results, all sequences of increases of the standard deviations of variables (including infinite values)", "why_tests_cant": "all results, all floats and all sequences of updates", "anchors": ["uncertainties/core.py: AffineScalarFunc.std_dev, AffineScalarFunc.error_components, Variable.std_dev"]}
{"id": "C98", "title": "Shifts and signs leave uncertainties exactly unchanged", "statement": "With double-precision floats (zeros of both signs being equal): x + a, a + x, x - a and +x, where a is a number, have exactly the derivatives, error components and standard deviation calculated from them (x.s) that x has, bit for bit, whatever calculations x results from; a - x and -x have exactly the opposite derivatives and the same components and standard deviation; abs(x) is one of the two according to the sign of the nominal value. If x is a variable whose standard deviation is between 2**-511 and 2**511, the standard deviation of these results is exactly x.std_dev.", "quantifier": "all histories, all numbers with uncertainty and all constants (including infinities and NaN)", "why_tests_cant": "all formulas and all floats; the absence of any rounding is a property of the order of all the float operations", "anchors": ["uncertainties/core.py: LinearCombination.expand, AffineScalarFunc.std_dev, AffineScalarFunc.error_components, add_operators_to_AffineScalarFunc"]}
{"id": "C99", "title": "Derivatives given to wrap by an iterator", "statement": "When derivatives_args is an iterator (generator, infinite iterator, iterator with side effects), each of its elements is asked for at most once, in order, only when the signature of the function (in wrap) or a positional argument with an uncertainty (in a call) needs it, and never after the iterator has ended; a call gives the same result as if derivatives_args was the list of the elements given so far. An exception of the iterator leaves wrap() or the call unchanged, and the elements already obtained are not lost.", "quantifier": "all iterators (any state, any sequence of answers, exceptions and ends, changes of their state by other parts of the program between calls), all functions (including functions with side effects) and all histories of calls", "why_tests_cant": "all iterators, all sequences of answers and all histories of calls with any arguments", "anchors": ["uncertainties/core.py: wrap, IndexableIter"]}
{"id": "C100", "title": "Results can be saved as nominal values and a covariance matrix", "statement": "A calculation only depends on the nominal values and the covariance matrix of the numbers that it starts from: if numbers with the same nominal values and the same covariance matrix are calculated in two programs, from any variables, any calculation on them gives the same nominal values, standard deviations and covariance matrices. In particular, results saved as nominal values and covariance_matrix() and loaded with correlated_values(), in the same program or another one, can replace the original ones in any later calculation. The covariance matrix of the results is J C J^T, where C is the covariance matrix of the initial numbers and J contains the derivatives of the calculation with respect to these numbers (law of propagation of uncertainties).", "quantifier": "all pairs of programs with the same functions, all numbers of initial quantities (calculated from any variables), and all calculations made of operators, wrapped functions (with positional and keyword arguments) and locally constant functions", "why_tests_cant": "all calculations, of any length, and all the histories of the numbers that they start from", "anchors": ["uncertainties/core.py: correlated_values, correlated_values_norm, covariance_matrix, LinearCombination, AffineScalarFunc, wrap", "uncertainties/ops.py: add_arithmetic_ops"]}
{"id": "C101", "title": "wrap() works for any callable", "statement": "wrap(f, derivatives_args, derivatives_kwargs) accepts any callable f (function, lambda, built-in function, bound method, class, functools.partial object, instance of a class that defines __call__), and the derivative number i of derivatives_args is the one used for the parameter that the positional argument number i of a call fills, whether this parameter is given by position or by keyword.", "quantifier": "all callables (with or without bound first parameter, name and signature), all derivatives given to wrap, all histories and all calls", "why_tests_cant": "all kinds of callables, all signatures and all the ways of passing each argument", "anchors": ["uncertainties/core.py: wrap, getargspec"]}
{"id": "C102", "title": "Wrapped functions that call wrapped functions", "statement": "Functions and derivatives given to wrap() can call wrapped functions, including the one that is being called (recursive functions, functions that call each other): each call, at any depth, returns the result and has the side effects of a call made on its own, with derivatives that are those given to wrap() or numerical ones. Calls made before, and the calls of the same wrapped function that are in progress, change nothing.", "quantifier": "all families of functions and derivatives (programs that read and change a state of any type, call any wrapped functions with any arguments, and catch or raise exceptions), all recursion limits, all histories of calls, all arguments", "why_tests_cant": "the programs, the depth and order of the calls inside each other and the histories are arbitrary", "anchors": ["uncertainties/core.py: wrap, partial_derivative, IndexableIter"]}
{"id": "C103", "title": "Arrays with any number of dimensions and broadcasting", "statement": "uarray() and the functions of unumpy accept arrays with any number of dimensions, scalars and arrays of different shapes. The shape of the result is the one given by the broadcasting rules of NumPy, and ValueError is raised if and only if the shapes are not compatible. Each element of uarray() is a new independent variable, even when several elements share the same nominal value or standard deviation; NegativeStdDev is raised if a standard deviation is negative. nominal_values() and std_devs() keep the shape of the array and give the values of each element. Each element of the result of a function is the result of the function of umath for the elements of the arguments at its place; if the function raises an exception for some elements, the exception of the first one is raised.", "quantifier": "all numbers of arrays, dimensions and lengths (0 included), all elements, all functions, all histories", "why_tests_cant": "shapes, elements and functions are arbitrary", "anchors": ["uncertainties/unumpy/core.py: uarray, nominal_values, std_devs, define_vectorized_funcs"]}
