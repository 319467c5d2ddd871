{
 "C01": [
  "proved",
  "For every float semantics (class PyMath), over arbitrary command histories; f raising or returning a non-number included. C01_whole_calculation: same program run with plain floats (Spec/Plain.lean)."
 ],
 "C02": [
  "proved",
  "For every program without copies (copies are covered by C32-C34): result number k built from differentiable operations only (SmoothResult), the replayed calculation is differentiable in each variable and derivatives[v] is its derivative. C02_operators, C02_unary, C02_math, C02_math_two show that the operators and the umath functions are such operations where they are differentiable; % in its second operand, gamma, lgamma, fmod and user functions without derivatives use numerical derivatives, which must be exact."
 ],
 "C03": [
  "proved",
  "Exact arithmetic (ExactLin). C03_reads: any two continuations that differ only by reads give identical observations; C03_reads_and_copies: with copies, up to a one-to-one renaming of variables. C03_refinement: every history refines the specification of linear error propagation. Histories include numbers built from given derivatives (affine command: correlated values, array functions); modf and ldexp of a number that depends on no variable are excluded, because the code there depends on previous reads (C30_fails_constant, F44)."
 ],
 "C04": [
  "proved",
  "Every float semantics; fuel-based loop never runs out. Recursion limit and memory are not modelled (the code is iterative); derivative functions are total functions that may raise."
 ],
 "C05": [
  "proved",
  "Exact arithmetic (real numbers with NaN), after any history of commands; with rounded floats (C05_std_dev_floats), x.s is bit for bit the square root of the sum of the squares of the error components, each one once, in some order. The distance to the exact value is C71."
 ],
 "C06": [
  "proved",
  "Exact arithmetic, after any history; with rounded floats (C06_error_components_floats), each component is bit for bit abs(derivative*std_dev), or 0 for an exact variable."
 ],
 "C07": [
  "proved",
  "Exact arithmetic and double precision, after any history (in double precision, a NaN standard deviation may be replaced by the OverflowError that the square of another component raises)."
 ],
 "C08": [
  "proved",
  "Exact arithmetic (real numbers with NaN), and any float arithmetic (C08_floats, C08_floats_covariances: unchanged bit for bit), after any history of commands."
 ],
 "C09": [
  "partial",
  "Rejection, absence of side effect and non-negativity proved after any history, for every float type that is a model of the code's tests (non-negativity of all the objects: exact arithmetic and double precision); the full claim fails for -infinity, which is accepted (C09_negation_minus_infinity)."
 ],
 "C10": [
  "proved",
  "Programs without copies that create at least one variable; finite standard deviations (with a NaN standard deviation the difference has a NaN standard deviation, see C07)."
 ],
 "C11": [
  "proved",
  "Exact arithmetic (real numbers with NaN), after any history of commands. Entries, symmetry, positive semi-definiteness, diagonal, independence."
 ],
 "C12": [
  "partial",
  "The agreement is proved when no derivative is NaN; the full claim is false (C12_negation: NaN derivative with respect to an exact variable gives std_dev 0 and NaN variance)."
 ],
 "C13": [
  "proved",
  "Exact arithmetic; the eigensolver numpy.linalg.eigh is a parameter that must return an orthogonal diagonalization (GoodEigh; goodEigh_exists: such solvers exist); tags, if given, one per number. C13_fails_few_tags: with fewer tags the code silently drops variables (F13)."
 ],
 "C14": [
  "proved",
  "Exact arithmetic; eigensolver as in C13; any symmetric matrix, through its positive part (PositivePart). C14_new_variables: the variables are new and have the given tags."
 ],
 "C15": [
  "proved",
  "Exact arithmetic (real numbers with NaN), after any history of commands. Reflexivity fails for infinite standard deviations (C15_infinite_std_dev_not_reflexive)."
 ],
 "C16": [
  "proved",
  "Exact arithmetic (real numbers with NaN), after any history of commands."
 ],
 "C17": [
  "proved",
  "Exact arithmetic (real numbers with NaN), after any history of commands."
 ],
 "C18": [
  "proved",
  "Every float semantics, any history: call of a wrapped function on plain arguments = call of f."
 ],
 "C19": [
  "proved",
  "C19_derivative_functions: every float semantics. C19_call: exact-arithmetic class ExactLin (expansion order irrelevant), any history."
 ],
 "C20": [
  "proved",
  "Any history; hypotheses: f and supplied derivatives do not distinguish keyword/position."
 ],
 "C21": [
  "proved",
  "Exact arithmetic (real numbers with NaN): the value is the central difference with the step of the code, exact for quadratics, within the third-derivative bound otherwise; positional and keyword arguments."
 ],
 "C22": [
  "proved",
  "Any finite or infinite iterable, any sequence of accesses, any history; counts the elements taken from the iterator."
 ],
 "C23": [
  "partial",
  "Exact arithmetic. True derivative proved for every operator and unary method at every differentiable point, except x % y with respect to an uncertain divisor, whose derivative is numerical (C23_mod_partial gives its value; C23_mod_fails shows it is wrong next to a jump of x // y)."
 ],
 "C24": [
  "proved",
  "Exact arithmetic (real numbers with NaN), after any history."
 ],
 "C25": [
  "proved",
  "Exact arithmetic, after any history; C25_zero holds for every float semantics."
 ],
 "C26": [
  "partial",
  "C26_exact_partial: in exact arithmetic no derivative ever raises where the operation succeeds. Doubles (C26_doubles_partial): +, -, *, //, % always succeed where the floats do (including the numerical derivative of %), and / succeeds if the divisor is a plain float, infinite, NaN, or between 2**-537 and 2**511. The full claim fails: 1/y overflows in y**2 for large y (C26_division_fails) and divides by y**2 = 0 for small y (C26_fails_small)."
 ],
 "C27": [
  "proved",
  "Exact arithmetic (real numbers with NaN): for every function with a derivative in the table (all but gamma, lgamma, fmod), after any history, the derivatives of the result are the derivatives of the arguments combined with the true partial derivatives, wherever the function of the math module is differentiable; C27_differentiable gives the points. Includes log with one and two arguments."
 ],
 "C28": [
  "partial",
  "Functions with derivatives in the table, for every float semantics whose operations raise only ValueError, ZeroDivisionError, OverflowError and without any law of arithmetic (C28_floats_*): success and nominal value; with exact sums, also the derivatives (NaN instead of an exception). fmod: exact arithmetic, and doubles less than 2**1023 (C28_fmod_doubles_partial). Missing: gamma and lgamma, and fmod for larger doubles, for which the property fails (C28_gamma_fails, C28_fails_fmod)."
 ],
 "C29": [
  "proved",
  "Every float semantics, every history. Model: command lcst."
 ],
 "C30": [
  "partial",
  "fsum with any number of terms; ldexp and modf after any history, of numbers that depend on at least one variable. For a number with uncertainty that depends on no variable (e.g. an element of an inverse matrix with null derivatives) the property fails: C30_fails_constant (F44). Simplification: the coefficient 2**i of ldexp is a float in the model; in the code it is a Python integer for i >= 0, which raises OverflowError in float multiplications when i >= 1024 (see DESIGN.md, F17)."
 ],
 "C31": [
  "partial",
  "Mantissa and exponent only. The derivatives part is false of the code: C31_fails proves that reading the derivatives raises TypeError twice and then gives nothing, for every number with uncertainty after every history."
 ],
 "C32": [
  "proved",
  "Any history; copy.copy and copy.deepcopy of a variable; later updates independent."
 ],
 "C33": [
  "proved",
  "Any history (any expansion state and sharing). Python's recursion limit on very deep expressions is not modelled."
 ],
 "C34": [
  "proved",
  "Any history, any list. The byte format of pickle is not modelled: pickling = copying the reachable object graph with one memo, as pickle does."
 ],
 "C35": [
  "proved",
  "first_digit with an exact logarithm (equal to the floor of the real logarithm); characterised uniquely."
 ],
 "C36": [
  "proved",
  "round() and signif_dgt_to_limit in exact arithmetic, carries included."
 ],
 "C37": [
  "proved",
  "PDG_precision in exact arithmetic, scale invariance, and the digits displayed."
 ],
 "C38": [
  "proved",
  "All accepted format specifications (C62), finite values in exact decimal arithmetic, non-zero uncertainty; the printed string is decoded by the independent relation Displays of Spec/Printed.lean."
 ],
 "C39": [
  "proved",
  "For every specification giving a readable string (hypotheses of the structure Readable: no thousands separator, no unusual fill, no percent sign, LaTeX only with pretty-print), the string in ± notation parses back to the printed numbers exactly."
 ],
 "C40": [
  "proved",
  "Same readable specifications as C39; more than 308 decimals in units of the last digit make printing itself raise OverflowError (C65_fails_shorthand). Exact arithmetic."
 ],
 "C41": [
  "proved",
  "Same scope as C38. The uncertainty is compared with its value rounded up to a power of ten when the rules of the Particle Data Group apply (leading digits 950 or more)."
 ],
 "C42": [
  "proved",
  "All cases: both values finite (C42_exponent_e/g), uncertainty zero, infinite or NaN (C42_nominal_e/g, nominal value not zero), nominal value infinite or NaN (C42_uncertainty_e/g). Exact decimal arithmetic."
 ],
 "C43": [
  "proved",
  "All nominal values and formats. IsZeroText: 0, or several zeros when the zero flag is used. The converse covers finite, infinite and NaN nominal values."
 ],
 "C44": [
  "partial",
  "The property is false: C44_fails_precision_ignored, C44_fails_precision_error and, for all values, C44_fails_width (the precision is used as a width). Proved: without precision, width or exponent, the format is applied as for a float."
 ],
 "C45": [
  "proved",
  "Exact arithmetic; exponents above 308 raise OverflowError (C45_out_of_range). ASCII digits."
 ],
 "C46": [
  "partial",
  "Proved for every content with a plus-minus symbol. False for the shorthand notation between parentheses, whose factored exponent is silently ignored (C46_fails_shorthand, C46_exponent_ignored)."
 ],
 "C47": [
  "partial",
  "The property is false: see C47_fails_exceptions and C47_fails_ignored. Proved: the only exceptions are ValueError, OverflowError, NegativeStdDev; every accepted string without inner newline has one of the documented forms or one of three explicit undocumented forms. The numbers that int() and float() accept are specified by a separate grammar (Spec/Literal.lean), which is proved to be the one of the model (C47_int_literals, C47_float_literals)."
 ],
 "C48": [
  "proved",
  "Round trip of every integer through the superscript notation, ordinary digits accepted, and nothing but superscript characters produced."
 ],
 "C49": [
  "proved",
  "Given float(repr(v)) == v for the two values (C49_repr_round_trip, any floats); for the model of repr and float() here, this is proved for all the numbers with finitely many decimals, the infinities and NaN (C49_repr_decimals, C49_repr_round_trip_decimals). For variables without a tag (the representation of a tagged variable is not meant to be parsed)."
 ],
 "C50": [
  "partial",
  "All schedules, any number of threads, when no thread reads for the first time an object that another thread reads for the first time or uses (in particular when derivatives were read once before). Two threads that read the same fresh quantity can see wrong derivatives: C50_fails."
 ],
 "C51": [
  "partial",
  "Interruption after any number of operations: other quantities, and quantities already read, are intact; interruptions before the first term or after the storage are harmless. Interruptions inside the loop lose terms: C51_fails."
 ],
 "C52": [
  "proved",
  "any shape (two dimensions), any mix of plain numbers and numbers with uncertainties, after any history; uarray gives back its arguments, elements are fresh independent variables. For broadcasting and any number of dimensions, see C103. C52_std_devs_reads, C52_nominal_values_reads: in any arithmetic, including the exceptions raised by an element."
 ],
 "C53": [
  "proved",
  "exact real arithmetic; NumPy's inv is a parameter assumed to return the inverse of invertible matrices; any size, any dependences; the derivative is that of the matrix inverse; both products have null standard deviations."
 ],
 "C54": [
  "proved",
  "exact real arithmetic; NumPy's pinv is a parameter assumed to satisfy the four Moore-Penrose equations; any size and rank; the pseudo-inverse is differentiable along families of constant rank and the derivative is the one used."
 ],
 "C55": [
  "partial",
  "names: proved for all functions but asinh, for which the property is false (C55_fails_asinh: unumpy.arcsinh does not exist, the function is unumpy.asinh); element-wise behavior: proved for any shape; for locally constant functions, empty arrays and results of different NumPy types are missing (see C103)."
 ],
 "C56": [
  "proved",
  "Exact arithmetic (real numbers with NaN), after any history of commands."
 ],
 "C57": [
  "partial",
  "TypeError: proved; message: false for int() and complex() (C57_fails_message: the message always names float, because of a closure on the loop variable)."
 ],
 "C58": [
  "proved",
  "Exact arithmetic (real numbers with NaN), after any history of commands."
 ],
 "C59": [
  "proved",
  "all objects, for tuple forms; all strings, for string forms; the deprecation warning is not modelled; behavior of Python 3 for comparisons between different types."
 ],
 "C60": [
  "partial",
  "Expressions in a simplified syntax tree, with a compositional meaning (Spec/PyEval). .std_devs(): meaning preserved and valid programs stay valid, fully. .std_dev() and .set_std_dev(): meaning preserved when set_std_dev() is not called with a keyword argument (C60_fails_set_std_dev_keyword: x.set_std_dev(value=y) becomes x.std_dev = value = y, which changes the variable value), valid programs stay valid when set_std_dev() is only called in statements (C60_fails_set_std_dev_expression); second update without effect, fully. ufloat(): meaning preserved when a second positional argument after a string is not a number (C60_fails_ufloat_number: ufloat(\"1.23\", 0.1) changes), second update without effect when the first element of pairs is neither a string literal nor a pair (C60_fails_ufloat_twice). uarray()/umatrix(): meaning preserved, but the second update changes uarray(*x) to uarray(**x) (C60_fails_uarray_twice). Completeness: no obsolete call to uarray()/umatrix() remains (C60_uarray_complete), none to ufloat() under the same restriction on pairs, and the calls .std_dev(), .set_std_dev(), .std_devs() that remain are followed by ., (, [ or ** (C60_fails_std_dev_followed: x.std_dev()**2 is not updated). The obsolete methods of the package (callable standard deviations, set_std_dev) are modelled in Model/Legacy: C60_package_updates_partial gives the updates for programs that use these objects."
 ],
 "C61": [
  "proved",
  "exact real arithmetic, finite standard deviations of the variables; the function of arrays of floats is any function defined everywhere (value, dependence), or any affine function (derivatives)."
 ],
 "C62": [
  "proved",
  "The regular expression is modelled as an ordered list of matches, with lazy and greedy parts."
 ],
 "C63": [
  "proved",
  "Same scope as C38."
 ],
 "C64": [
  "partial",
  "Full layout proved for finite nominal values and positive uncertainties (C64_pm_partial etc.) and for infinite, NaN and zero values (C64_special_*_partial; not when a precision is given with the types g, G or none, because the code then adds its digits to the width, C64_fails_precision_padding). The alignment '=' with a width never gives a string (C64_fails_equals)."
 ],
 "C65": [
  "partial",
  "Proved outside the listed exceptions, each of which is a real failure (C65_fails_options, C65_fails_tiny, C65_fails_shorthand, C64_fails_equals, C63_zero_digits, C44_fails_precision_error); magnitudes between 1e-300 and 1e300, or zero (1e-100 to 1e100 and precision at most 100 for the shorthand notation)."
 ],
 "C66": [
  "partial",
  "Nominal values, standard deviations, independence and identity of elements are proved for all lists. Correlations between different elements are lost by copy.deepcopy: proved for every list (C66_copies_uncorrelated), with a witness (C66_fails)."
 ],
 "C67": [
  "partial",
  "Equal quantities have equal hashes unless both have zero standard deviation; the code violates it for two exact variables (C67_fails)."
 ],
 "C68": [
  "partial",
  "Holds for usual slots; the code loses private slots and slots given by an iterator, cannot unpickle classes that declare __weakref__, and copy.copy shares __dict__ (C68_fails_*). Properties of classes are not modelled."
 ],
 "C69": [
  "partial",
  "Holds after the derivatives have been read; the code violates it before: for any limit on recursions, long sums cannot be copied or pickled (C69_fails). The limit is counted in nested LinearCombination objects."
 ],
 "C70": [
  "proved",
  "Real arithmetic with NaN; derivatives that are not NaN."
 ],
 "C71": [
  "proved",
  "For all float types that satisfy the laws of the standard model of rounding (class Rounded; B64 is an instance, with u = 2^-53 and eta = 2^-1075). Bounds: C71_derivatives, C71_error_components, C71_std_dev for histories without copies, C71_copies for all histories (relational specification: the identities of the variables of copies are not specified; C71_copies_none relates the two); twice the bound for histories that differ by reads: C71_reads. The exact form of C03 is false with rounding: C71_fails_reads_exactly."
 ],
 "C72": [
  "partial",
  "Proved: the bound told by the text of the program (C72_bound), no work for a second reading (C72_read_again), work linear in the program if results are used once (C72_single_use_partial). The linear bound is false when intermediate results are used several times without being read: C72_fails_shared (2^(k+1) - 2 terms after k additions); reading the intermediate results avoids it: C72_read_intermediate. Copies take the same work as their originals."
 ],
 "C73": [
  "partial",
  "Proved for all schedules when, for each function, at most one thread needs derivatives that were not taken from the iterable yet (C73_calls_partial), hence for + - * / // % and unary operators (C73_operators) and for functions already used (C73_already_used) or with named parameters (C73_named). The full statement is false: two threads that are the first to calculate x**y can exchange the derivatives of ** for ever (C73_fails, C73_fails_exchanged). Each call is finished after a bounded number of its own operations (C73_finishes)."
 ],
 "C74": [
  "partial",
  "Proved for all points of interruption except between next() and append() in IndexableIter.__getitem__ (C74_interrupted_partial, C74_one_call_partial); no exception for the operators other than ** (C74_operators). At that point the statement is false: all the later calls use shifted derivatives (C74_fails)."
 ],
 "C75": [
  "proved",
  "Exact decimal arithmetic. The number of digits is 6 for g and G whatever the precision of the format, which is used as a width (F4)."
 ],
 "C76": [
  "partial",
  "Proved for finite numbers between 1e-100 and 1e100, for all operations satisfying FlOps.Sound (doubles with a correctly rounded log10: C76_doubles_sound; with exact operations, the model is that of C38-C42 and C63: C76_exact_model). The code does not keep the number of digits (C76_digits_fail), the size of the mantissa (C76_mantissa_below_one, C76_mantissa_ten) and the exponent beyond 12 digits (C76_exponent_fails): the theorems state what holds. The layout (width, fill, zeros, thousands, sign, styles) is C76_layout_pm and C76_layout_shorthand. Zero, infinite and NaN uncertainties and nominal values: C76_zero, C76_special_pm, C76_special_shorthand, C76_nominal_e, C76_nominal_f, C76_nominal_g, C76_uncertainty_fixed, C76_uncertainty_g, C76_uncertainty_shorthand (nominal value infinite or NaN). (The round trip is C78.)"
 ],
 "C77": [
  "proved",
  "For all operations satisfying FlOps.Sound (relative errors of 1e-15; IEEE doubles are an instance), numbers and powers of ten within 1e-290..1e290 (Ranged, Reach). Correct rounding of the notations without separate exponent for doubles: C77_plus_minus_nearest, C77_shorthand_nearest; with an exponent it fails (C77_exponent_not_nearest, finding F62). Overflow to infinity while reading is out of the range of the theorems."
 ],
 "C78": [
  "proved",
  "For all operations satisfying FlOps.Sound, finite numbers between 1e-100 and 1e100, positive uncertainty, readable specifications."
 ],
 "C79": [
  "partial",
  "Proved for all finite numbers and all specifications, except when the uncertainty is printed as zero (C79_zero_uncertainty: read as an exact number), when a negative nominal value is printed as zero (the model has no signed zero), and when the uncertainty is printed as 95, 950, 9500... in the formats f, F and % without precision, where the code itself is not stable (C79_fixed_point_not_stable, finding F63)."
 ],
 "C80": [
  "proved",
  "Symmetry for any float type (C80_symmetric); bound for all float types that satisfy the laws of the standard model of rounding, histories without copies (C80_covariance) and all histories (C80_copies), any order of iteration (C80_any_order). Rounding can make the matrix not positive semi-definite: C80_fails_positive."
 ],
 "C81": [
  "proved",
  "Exact linear propagation for C81_silent, C81_silent_copies and C81_reread (with rounding, reading early can change the last digits: C71 bounds it); the other theorems for any float arithmetic. C81_silent is without copies, C81_silent_copies with copies, for what is printed. Tags are strings. The text of the numbers is that of the models of C38-C49 and C76."
 ],
 "C82": [
  "proved",
  "Error of the normalisation, from the elements of covariance_matrix() (whose own error is bounded by C80). The relative rounding error u must be smaller than 1. C82_fails_exact: the exact properties do not hold."
 ],
 "C83": [
  "proved",
  "Assumes that the shifted points and the result are finite. C21 is the version in exact arithmetic. How the derivative is then propagated is C71."
 ],
 "C84": [
  "proved",
  "Assumes that all the results are finite, and that rounding errors are too small to make a divisor vanish, to change the sign of the argument of abs() or to leave the interval of a function (Formula.Safe; necessary: C84_fails_unsafe). Programs without copies; operations +, -, *, /, abs, unary + and -, powers whose accuracy is given (proved from the accuracy of float powers by C84_power_nat, C84_power_const and C84_power; doubles with a natural exponent: B64.pow_implements), wrapped functions of one or two arguments whose accuracy is given (FnSpecs.Right; proved for umath.sqrt by C84_sqrt, for umath.sin, cos, tan, asin, acos, atan, sinh, cosh, tanh, asinh, acosh, atanh, exp, expm1, log, log10, log1p, erf, erfc, fabs, radians, degrees, hypot, atan2 and copysign from the accuracy of the functions of the math module by C84_sin, …, C84_copysign, on intervals where the functions are smooth (asin, acos and atanh: away from -1 and 1; acosh: away from 1; hypot: away from 0; atan2: at the right of the vertical axis), and for numbers less than 2**499 when squares are calculated, and for functions without derivatives by C84_numerical), floats as constants. C71 has all the operations, but its exact values use the partial derivatives calculated by the package."
 ],
 "C85": [
  "proved",
  "Commands are atomic (threads that stop in the middle of an operation: C50, C51, C73, C74). Keys of derivatives are not used as values (no .variable command), because the identity of variables is only known up to a correspondence. Sums are done with exact arithmetic (ExactLin), as in C03: with floats, the order of the terms of a sum of squares depends on the identity of the variables. The last example shows that the condition on common values is needed."
 ],
 "C86": [
  "proved",
  "exact real arithmetic; NumPy's dot() is modelled as the multiplications and additions of the elements that it does, and its isscalar() as true for plain numbers and false for numbers with uncertainties."
 ],
 "C87": [
  "partial",
  "First part: any float arithmetic in which reading ends (Halts), for all histories: C87_equality, C87_not_equal, C87_order, C87_bool; comparisons with floats: C87_float_equality, C87_float_not_equal, C87_float_order, C87_bool_difference. Second part, IEEE doubles: proved when the derivatives of both numbers are known (variables, results that were read) and finite: C87_equal_known_partial. In general it is false of the code: x == x can be False (C87_fails_reflexive: x = 0.1*v + 0.2*v), == is not symmetric (C87_fails_symmetric), reading x.derivatives changes the result (C87_fails_reads). Moreover two independent variables with small standard deviations (1e-200) and equal nominal values are equal (C87_fails_underflow), and comparisons can raise an OverflowError (C87_fails_overflow); idem for bool(x) and comparisons with a float (C87_fails_float_underflow, C87_fails_float_overflow)."
 ],
 "C88": [
  "proved",
  "Finality (C88_final, C88_variables): any float arithmetic in which reading ends. Chain rule (C88_call, C88_binop, C88_sum_product): any arithmetic with bounded rounding errors, in particular IEEE doubles; positional arguments."
 ],
 "C89": [
  "partial",
  "Proved: the call ends (C89_returns); the components have the keys of the derivatives, and each one depends on two standard deviations that its variable had during the call (C89_components), on a single one if the derivative is not infinite (C89_held); nothing changes if no variable of x changes (C89_unchanged); snapshot if at most one variable of x changes and no derivative is infinite (C89_snapshot_partial, arithmetic with bounded rounding errors, in particular IEEE doubles). The full claim is false of the code: C89_fails (two variables change: the result is a mixture that never existed), C89_fails_infinite (infinite derivative: the standard deviation is read twice by the code, in the test and in the product). The derivatives are read before the events (C50 is about threads inside this reading), and the commands of other threads are seen as single operations."
 ],
 "C90": [
  "partial",
  "Proved: the call ends (C90_returns); square and exactly symmetric matrix whatever the other threads do, or the exception of a square (C90_symmetric); same result as alone, including exceptions, if no standard deviation of the variables of xs changes (C90_unchanged); each element is the one of some moment of the call, if at most one variable changes (C90_element_partial, arithmetic with bounded rounding errors, in particular IEEE doubles). The full claim is false of the code, even for a single variable that changes: C90_fails, where the matrix has a correlation of 2. The derivatives are read before the events (they never change afterwards: C88; C50 is about threads inside this reading), and the commands of other threads are seen as single operations."
 ],
 "C91": [
  "proved",
  "Any float arithmetic that satisfies the laws of the standard model (RoundedDiv, RoundedSign; instances: IEEE doubles, exact arithmetic), all histories. numpy.linalg.eigh is a parameter: its result is arbitrary (C91_correlated_values_norm), or represents its argument up to ε (C91_correlated_values). C91_bound: the bound without underflow. C91_normalized: the matrix given to the eigensolver is close to the exact correlation matrix. Elements that overflow are excluded."
 ],
 "C92": [
  "partial",
  "Proved: the call ends (C92_returns); square matrix or the exception (C92_shape); the quotients of the covariances which were read, up to an explicit bound, hence a diagonal of 1 and symmetry up to rounding, whatever the other threads do (C92_correlation, C92_diagonal, C92_symmetric; positive finite variances: the division of a non-zero number by 0 in NumPy is not modelled); same result as alone if no standard deviation of the variables of xs changes (C92_unchanged); each element is close to the correlation obtained from a covariance and two variances of some moments of the call, if at most one variable changes (C92_element_partial). The full claim is false of the code: C92_fails, where the thread gets a correlation of 2 for two numbers whose correlation is always 1. Same model of threads as C90."
 ],
 "C93": [
  "proved",
  "Any arithmetic for C93_comparison, C93_any_algorithm (with any commands between the comparisons) and C93_unchanged; finite doubles for C93_min, C93_max and C93_sorted (binary insertion sort; the merging of CPython for lists of 64 items or more is another tree of comparisons, to which C93_any_algorithm applies)."
 ],
 "C94": [
  "partial",
  "Proved: nominal values with integers are exactly those of the program with floats (C94_nominal, C94_nominal_floats, for all operators); derivatives, standard deviations and covariances are those of the formula up to the bounds of C84 with a unit roundoff of 2**-51 (C94_derivatives, C94_std_dev, C94_covariance; +, -, *, / and abs); readings that raise no exception give these derivatives (C94_reading). The last part of the claim is false of the code: C94_fails, where reading the derivatives of a product of 20 integers and ufloat(0, 1) first raises OverflowError, and then returns no derivatives at all (C94_fails_overflow: for all integers that are too large for a float, which includes the coefficient of umath.ldexp)."
 ],
 "C95": [
  "proved",
  "Floats: equality up to the explicit bounds of C84 on rounding errors (C95_nominal, C95_std_dev, C95_covariance, and C95_first_order_* for results that are not affine); exact arithmetic: C95_exact. C95_functions, C95_umath and C95_umath2: all the functions of umath and the powers are covered. Probability is that of Mathlib. C95_not_affine shows that results which are not affine need small uncertainties (as documented). Correlated numbers (exact arithmetic): C95_correlated (affine results of operators), C95_correlated_linear (all calculations, linear approximations) and C95_correlated_values."
 ],
 "C96": [
  "proved",
  "Every float semantics. Functions are state transformers on an arbitrary type; C96_calls is about functions that also write down their calls (C96_noted: this changes nothing else); C96_pure: without side effects, this is the model of the other properties. The iterable derivatives_args itself has no side effect, and the functions do not call wrapped functions (see C99 and C102)."
 ],
 "C97": [
  "proved",
  "IEEE doubles, all histories: C97_increases (any number of updates), C97_increase (one update). The two exceptions are necessary: C97_overflow, and negative standard deviations are excluded because -infinity is accepted by the code (C97_minus_infinity, see C09)."
 ],
 "C98": [
  "proved",
  "Doubles (Py/D64: the representable numbers of B64, without the sign of zeros), all histories: C98_shift, C98_shifts (any number of constants), C98_reflected, C98_signs, C98_abs; C98_variable and C98_std_dev for variables (sqrt(x**2) == x in double precision). The bounds of the last sentence are necessary: C98_underflow (see F72, F77). The first theorems hold for any floats with the laws SignLaws."
 ],
 "C99": [
  "proved",
  "Model/WrapIterator: functions with side effects (as in C96) and any iterator of derivatives. C99_wrap, C99_result, C99_requests; C99_noted: an iterator that writes down its answers does the same. Not in the statement, and proved: after an exception in a generator, which ends it, later calls silently use numerical derivatives (C99_generator_exception, F81)."
 ],
 "C100": [
  "proved",
  "Exact arithmetic. C100_same (two programs), C100_correlated_values (saved and loaded), C100_propagation (J C J^T). Hypotheses: derivatives and standard deviations are not NaN; each of the original numbers depends on a variable (a number with an uncertainty but no variable cannot come from correlated_values); the eigensolver of NumPy is assumed to be correct (GoodEigh, as in C13)."
 ],
 "C101": [
  "partial",
  "The code does not have the full property: C101_fails_methods (with a bound method or a class and derivatives given to wrap, keyword arguments silently use the derivative of the next parameter, because inspect.getfullargspec() includes self; C101_methods_shifted: this is so for all methods), C101_fails_unnamed (AttributeError for callables without __name__). Proved: functions (C101_functions_partial), uncertainties given by position (C101_positions_partial), numerical derivatives (C101_numerical_partial)."
 ],
 "C102": [
  "proved",
  "Every float semantics. Functions are programs (Model/WrapNested) whose calls of wrapped functions run in the middle of the caller's call, on the same caches. C102_result: equal to the documented calls without caches (Spec/Nested); C102_no_nested_call: this is the model of C96 for functions that call no wrapped function. The arguments of the inner calls are plain values or numbers with uncertainty that exist before; the recursion limit counts calls of wrapped functions."
 ],
 "C103": [
  "partial",
  "Shapes, uarray() and functions that return numbers with uncertainty: proved (C103_shape, C103_shape_error, C103_uarray, C103_uarray_error, C103_uarray_negative, C103_nominal_values, C103_std_devs, C103_round_trip, C103_functions, C103_call, C103_exception). Locally constant functions (floor, isnan...): false for empty arrays (C103_fails_empty) and when a result does not have the NumPy type of the first one (C103_fails_type); C103_locally_constant_partial and C103_locally_constant_exception are the rest. The broadcasting rules are in Spec/Broadcast. The conversion to NumPy types is a parameter. Exact arithmetic for C103_uarray, nominal_values(), std_devs() and functions; every float semantics for shapes, errors and locally constant functions."
 ]
}