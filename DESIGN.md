# Formal model of `uncertainties` in Lean 4

Everything is in `lean/Verif`. The source modelled is the pinned commit of `/repo` (version 3.1.5).

* `properties.jsonl`: the properties, in English.
* `lean/Verif/Py`: float semantics; `Model`: the code, function by function, each definition citing the lines
  modelled; `Spec`: the small independent vocabulary in which the theorems are stated; `Lemmas`: helper lemmas;
  `Props`: the property theorems (names starting with the property id), with, beside them, concrete cases
  that meet their hypotheses.
* `MANIFEST.json`: status and theorems of each property. `AXIOMS.md`: axioms of each theorem.
* `seeded/LOG.jsonl`: the wrong programs that the theorems were tested against.

## 1. Shape of the model

| Code | Lean modules |
|---|---|
| `LinearCombination`, `expand`, `AffineScalarFunc.derivatives` | `Model/LinComb` |
| `partial_derivative`, `NumericalDerivatives`, `IndexableIter`, set-up of `wrap` | `Model/Wrap` |
| calls of wrapped functions, `Variable`, `derivatives`, `error_components`, `std_dev`, comparisons, `bool`, `std_score`, `covariance_matrix` | `Model/World` |
| the same for functions with side effects | `Model/WrapEffects` |
| operator table, `nan_if_exception`, `no_complex_result` | `Model/Ops` |
| `umath_core` | `Model/Umath` |
| copies, pickle | `Model/Copy` |
| programs: any sequence of API commands | `Model/Machine` |
| threads and interruptions inside `derivatives`/`expand`; inside calls of wrapped functions; threads that change standard deviations inside `error_components`/`std_dev`, `covariance_matrix` | `Model/Threads`; `Model/ThreadCalls`; `Model/ThreadStd`, `Model/ThreadCov` |
| `first_digit`, `PDG_precision`, `signif_dgt_to_limit`, `round` | `Model/Decimal` |
| Python's `float.__format__`, `'%.*f'`, `%d`... on exact decimal numbers | `Model/PyFormat` |
| `__format__`, `format_num`, `robust_align`, `__str__`, `__repr__` | `Model/Format`, `Model/Text` |
| `ufloat_fromstr` and helpers | `Model/Parse`, `Model/Text` |
| `ufloat` forms, coercions | `Model/Ufloat` |
| `correlated_values(_norm)` , `correlation_matrix` | `Model/Correlated`, `Model/CorrMatrix` |
| `__hash__`, copies of lists; attributes, slots, `__getstate__`, `__setstate__` of subclasses; recursion limit | `Model/Objects`, `Model/Pickle`, `Model/Recursion` |
| `uarray`, `nominal_values`, `std_devs`, `inv`, `pinv`, `matrix.I`, `wrap_array_func`, matrix product | `Model/Arrays` |
| programs that print (`format`, `repr`) and parse (`ufloat_fromstr`) | `Model/Print` |
| names and vectorization of `unumpy` functions | `Model/Unumpy` |
| `lib1to2` fixers | `Model/Fixers` |
| obsolete forms still accepted: `CallableStdDev`, `CallableStdDevs`, `set_std_dev` | `Model/Legacy` |

### Numbers

* `PyFloat ⊂ PyOps ⊂ PyMath`: classes of **operations only** (no laws). A theorem for every instance holds for
  whatever float semantics, IEEE rounding, overflow, infinities and NaN included (C01, C04, C18-C20, C22, C25_zero,
  C28, C29...).
* `ExactLin`: the laws of exact linear arithmetic (sums do not depend on the order). Used by the refinement theorem
  (C03) and what rests on it.
* `NR`: real numbers plus `nan`. No rounding, no overflow, no infinities, no signed zero; division by zero etc.
  raise, as in Python. Used for theorems on derivatives, standard deviations, comparisons, matrices.
* `Rounded`: the standard model of floating-point arithmetic (each operation has a relative error of at most `u`, and
  products an absolute error `η`), used by C71. `B64`: floats with 53 significant bits, rounding to nearest, underflow
  and overflow, which satisfies it and can be evaluated. `D64`: the numbers of `B64` that are doubles, with the same
  operations (C98).
* `ZN`, `OZ`, `IZ`: integers with NaN; with overflow of large squares; with infinities. They can be evaluated
  and are only used for examples and counterexamples.
* `FNum`: exact rationals plus `nan` and the infinities, with the sign of zero forgotten except where said, for
  formatting and parsing. `round`, `'%.*f'`, `'%.*e'` are round-half-even on the exact value, as in CPython; the
  binary rounding of literals and of `x/10**e` is not modelled there (see C76-C78). `10.0**e` overflows for e > 308.

### Mutable objects and histories

`LinearCombination` objects are cells of an explicit heap. `expand` is modelled as the loop it is (pop the last
term, push scaled children) on the live heap. `Variable.std_dev` is a mutable cell. A *program* is a list of
commands (`Cmd`: `ufloat`, operators, `umath` functions, wrapped functions given by the user, reads, updates of
`std_dev`, copies, pickles, comparisons, covariance matrices, `affine`: number built from given derivatives, ...),
which refer to results of earlier commands; it stops at nothing: exceptions are results. Theorems are about
`after cs`, the state after *any* program `cs`.

`Spec/Machine` is an independent machine without heap, laziness, caches: a quantity is a nominal value and a
gradient. `Reaches cs s` relates programs to states of this specification; `C03_refinement` shows that every history
refines it. Properties C05-C17, C24, C52-C58 are then stated with `SeenAs`/`Quantity`, i.e. what reading gives.

Two guards exclude histories where the code depends on previous reads: `modf` and `ldexp` of a number with
uncertainty that depends on no variable (finding F44).

### Text

Strings are lists of characters. Regular expressions are modelled as ordered lists of matches (greedy and lazy
parts, alternatives in the order of Python's `re`). Digits are ASCII digits (`\d` of Python also accepts other
digits). The limit of Python on the number of digits of `int()` is not modelled.

### Threads

`Model/Threads` cuts `derivatives` and `expand` in atomic operations on shared objects; schedules are arbitrary
lists of thread numbers, interruption is stopping after any number of operations. `Model/ThreadCalls` does the same for
the calls of wrapped functions; since the functions given to `wrap` are pure, their evaluation is merged with the
preceding operation on a shared list; `next` of the iterable is one operation.

### Arrays

Functions of arrays are described by the commands that they run and by the values that they return. `eigh`, `inv`,
`pinv` of NumPy are parameters with contracts (orthogonal diagonalization; inverse; Moore-Penrose equations),
each shown to be satisfiable. Arrays have two dimensions, except in C103 (any number of
dimensions, broadcasting; NumPy's rules are in `Spec/Broadcast`).

### Fixers

Simplified syntax tree (`Ex`), bottom-up transformations; `Spec/PyEval` gives a compositional meaning with an arbitrary
state, where the functions of the package satisfy the laws proved in C59 (for `ufloat`) or read in the code.

## 2. Plan per property

| Id | What is modelled | How it is proved |
|---|---|---|
| C01 | `wrap`'s call path over any `PyMath`; any history | simulation with the plain-float evaluation (`Spec/Plain`), induction over the history |
| C02 | any program; the replayed calculation (`Spec/Replay`) is a real function of one nominal value | induction over the program: each result is differentiable with derivative `derivatives[v]` |
| C03 | all commands | every history refines `Spec/Machine`; reads leave the specification state unchanged |
| C04 | `expand` with fuel | measure on the acyclic heap: fuel never runs out |
| C05-C08 | `error_components`, `std_dev`, setter | refinement, sums over variables in `NR`; with rounded floats (Props/C08_Floats.lean), invariant of the dictionaries, and equality of what is read with the two states that differ by one variable |
| C09 | setter | case analysis; negation witness for -inf in `IZ` |
| C10 | C02 + subtraction of calculations | uniqueness of the derivative, then C05 |
| C11, C12 | `covariance_matrix` | loop to closed form, PSD; NaN witness for C12 |
| C13, C14 | `correlated_values(_norm)`, `correlation_matrix` | matrix algebra, spectral theorem |
| C15-C17 | comparison functions | algebra of gradients |
| C18-C20, C22 | `wrap`, `IndexableIter`, keyword caches | invariant over call histories |
| C21 | `partial_derivative` over the reals | algebra for quadratics; Taylor bound |
| C23-C26 | operator table | `HasDerivAt` for each entry; overflow witness (`OZ`) for C26 |
| C27-C31 | `umath_core` table, `fsum`, `ldexp`, `modf`, `frexp` | `HasDerivAt` for each entry; negation for frexp |
| C32-C34 | copy, deepcopy, pickle on the heap | injective renaming of variables (`Spec/Copy`) |
| C35-C37 | digit functions over exact rationals | integer/rational arithmetic |
| C38, C41-C43, C63 | `__format__` on rationals | the printed string is decoded by the independent relation `Displays` (`Spec/Printed`) |
| C39, C40 | parse after print | the parser is run on the shape of the printed strings |
| C44 | special values | negation witnesses, and what remains true |
| C45, C46 | `ufloat_fromstr` | evaluation of the regular expressions on every string of the grammar of `Spec/Text` |
| C47 | accepted strings | inversion of the regular expressions (`Spec/Accepted`); witnesses |
| C48 | superscripts | induction on digits |
| C49 | `repr` | parse of the printed form; `float(repr(v)) == v` is a hypothesis |
| C50, C51 | `Model/Threads` | invariants over all schedules; witness interleavings |
| C52 | `nominal_values`, `std_devs`, `uarray` | refinement, element by element |
| C53, C54 | `inv`, `pinv` | derivative of inverse; pseudo-inverse along constant rank families; Penrose equations |
| C55 | name table, `numpy.vectorize` | whole finite table; refinement |
| C56, C58 | `std_score`, laws of standard deviations | sqrt algebra, Minkowski |
| C57, C59 | coercions, forms of `ufloat` | case analysis |
| C60 | fixers; callable standard deviations and `set_std_dev` (`Model/Legacy`) | structural induction on expressions, for any meaning of names; completeness: calls that remain after the update |
| C61 | `wrap_array_func` over the reals | finite differences of affine functions |
| C62 | format specification regular expression | inversion of the ordered match list |
| C64 | `format_num`, `robust_align` | inversion of the printing functions against `Spec/Layout` |
| C65 | `__format__` | every step succeeds; bounds on the common exponent |
| C66 | `copy.deepcopy` of lists (common memo) | refinement; general negation for correlations |
| C67 | `__hash__` (identity), dictionaries keyed by hash and `==` | invariants over histories; NR algebra |
| C68 | `__getstate__`, `__setstate__`, Python's slots and attribute look-up | induction on the slots, for any order of the set of names |
| C69 | `copy.deepcopy`, `pickle` with a limit on recursions | the fuel of the recursive copy is the limit; chain of sums |
| C70 | `correlation_matrix` | Cauchy-Schwarz, with its case of equality |
| C71 | `expand`, `derivatives`, `error_components`, `std_dev` with rounding (`Rounded`: standard model of floating-point arithmetic, satisfied by the 53-bit floats of `Py/B64.lean`) | the loop of `expand` computes a sum of products over the paths of the expression, in some order; bound on the number of roundings of each term (depth + number of paths - 1), kept by reads (which replace a subtree by its computed derivatives); copies: `Spec/RoundingCopy` (a copy is a renaming of the variables), invariant of the copy in `Lemmas/RoundingCopy` |
| C72 | `expand` (number of iterations of its loop), all operations, reads and copies | the number of terms is a weight of the object (terms plus weights of their children) that the heap lemmas of `Lemmas/Cost.lean` follow through each command; compared with a prediction made from the text of the program only (`Spec/Cost.lean`) |
| C73, C74 | `f_with_affine_output` and `IndexableIter.__getitem__` cut in operations on the shared lists (`Model/ThreadCalls`) | invariant over all schedules (elements stored = elements taken, except for a thread between `next` and `append`), then refinement: a machine that differs only by the derivatives already fetched gives the same results for ever (`Lemmas/SameWraps`); witness interleavings |
| C75 | `format_num` with the suffixes of the general formats; Python's `g` format and `repr` (`Model/PyFormat`) | value of the digits printed (`Lemmas/General`): significant digits with carry, removal of the trailing zeros, decimal point and exponent; reading of the specification by Python |
| C76 | `__format__` with rounded operations (`Model/FloatFormat`: `FlOps` is a rounding, `10.**e` and `int(floor(log10(v)))`; the exact model is an instance) | error bounds for each step under `FlOps.Sound` (`Lemmas/FloatDigits`…`FloatLayout`); positions of digits agree with the exact ones for at most 12 digits; the layout is described with the vocabulary of C38 and C63 (`Props/C76_Layout`) and special values in `Lemmas/FloatSpecial`; IEEE doubles satisfy `Sound` (`Py/B64Format`, with the correctly rounded real logarithm) |
| C77 | `ufloat_fromstr` with rounded operations (`Model/FloatParse`: an instance `Fl f` of the operations of the parser, reading literals to the nearest float) | the lemmas of the parser are proved for any operations (`Lemmas/ParseGeneric`), then errors are bounded (`Lemmas/FloatParse`); exactness of powers of ten and integers for doubles (`Py/B64Exact`) |
| C78 | models of C76 and C77 together | the printed string has one of the written forms of C77 (`Lemmas/FloatRoundTrip`) |
| C79 | models of C38 and C39 | the last displayed digit and the exponent are the same for the displayed numbers (`Limit.again` in `Lemmas/Reprint`), and the text only depends on rounded numbers |
| C80 | `covariance_matrix` with rounding; the sum in any order is `covSum` (Model/CovSum) | same invariant as C71; a product or sum of approximations `|x - X| <= m - |X|` is an approximation of the product or sum; the upper triangle is a copy of the lower one |
| C81 | histories with `format`, `repr`, `ufloat_fromstr` (Model/Print) | each of these commands has the effect of reading a standard deviation or of `ufloat()`: refinement to the histories of C03; texts starting with `<` match none of the regular expressions |
| C82 | `correlationMatrix` (Model/CorrMatrix) with floats that satisfy laws of division (`RoundedDiv`, proved for `B64`) | error analysis of two square roots and two divisions; witness evaluated by the kernel for the inexact diagonal and the asymmetry |
| C83 | `partialDerivative`, `derivStep`, `centralDiff` (Model/Wrap) with floats that satisfy laws of subtraction, division... (`RoundedStep`, proved for `B64`) | error analysis: mean value inequality for the shifted points, Taylor bound of C21, roundings of the quotient; C19 for the derivative that is used |
| C84 | programs made of +, -, *, /, abs(), powers (`C84_power_nat`, `C84_power_const`, `C84_power`: the accuracy follows from the one of float powers and logarithms), wrapped functions of one or two arguments with a given accuracy (`FnSpecs.Right`; `C84_sqrt`, `C84_sin`, `C84_cos`, `C84_tan`, `C84_sinh`, `C84_cosh`, `C84_tanh`, `C84_exp`, `C84_expm1`, `C84_log`, `C84_radians`, `C84_degrees`, `C84_asin`, `C84_acos`, `C84_atan`, `C84_asinh`, `C84_acosh`, `C84_atanh`, `C84_log10`, `C84_log1p`, `C84_erf`, `C84_erfc`, `C84_fabs`, `C84_hypot`, `C84_atan2`, `C84_copysign` and `C84_numerical` give it for functions of `umath` and numerical derivatives), `ufloat`, `std_dev = …` and reading commands (`Cmd.IsCalc`), floats that satisfy `RoundedOps` (and `RoundedRange` — no overflow of moderate sums — for the functions of `umath` that calculate squares; proved for `B64`; for `NR` without any rounding) | separate specification (`Spec/Formula.lean`): the formula as a real function, true partial derivatives (Mathlib `deriv`), bounds by induction on the formula; relation between the formula and the exact chain rule of C71 by induction on the program |
| C85 | histories made of the commands of any number of programs (`weave`: each program has its own names) after a common history; the state of the machine is the one of C03 | specification of the interleaving in `Spec/Weave.lean`; induction on the interleaving: the part of the state that a program has names for (`View`) and the state of the program alone are the same up to a renaming of the variables (`Iso`), and the commands of the others only change variables which have no correspondent |
| C86 | `unumpy.matrix.__rmul__`: `matRmul` (scalar or array on the left), with the commands that the products of elements need | induction on rows and columns, as for the matrix product of C53 |
| C87 | comparisons (`eqAff`, `cmpAff`, reflected comparison when only the right operand is a `Variable`), with any floats and with the doubles of `Py/B64` | unfolding to the difference seen by the program; for doubles: chain rule of C88 with coefficients 1 and -1, oddness of rounding; witnesses evaluated by the kernel |
| C88 | expansion in place of lazy expressions (`expandStep`), reads, all commands including copies and pickle | invariant `Stays` (an expanded node never changes) over all commands; induction on the arguments for the chain rule |
| C89 | the loop of `error_components` cut in readings of `_std_dev`, with commands of other threads between them (`Model/ThreadStd`) | induction on the events, with the variables at each moment; witness interleavings with doubles evaluated by the kernel |
| C90 | the loops of `covariance_matrix` cut in readings of `_std_dev` (one per variable and element), with commands of other threads between them (`Model/ThreadCov`) | induction on the events, from any point of the loops; uniqueness of keys for the element; witness interleaving with doubles evaluated by the kernel |
| C91 | `correlatedValuesNorm`, `correlatedValues` (`Model/Correlated`) for any float type with the laws of rounding; the eigensolver is a parameter | the exact state of C71 (`RState`) after the new commands, then a running bound along the sum of C80 where the coefficients are products and the variances squares of square roots; the divisions and multiplications by the same rounded standard deviations cancel up to two roundings |
| C92 | `correlation_matrix` on the matrix that `covariance_matrix` gives under concurrent updates (`Model/CorrMatrix`, `Model/ThreadCov`) | from C90, with the bound of C82 for the quotients; witness interleaving with doubles evaluated by the kernel |
| C93 | comparisons of the machine; algorithms are trees of comparisons (`Spec/Sorting`) | induction on the tree, with C87 for each comparison and the stability of nominal values (C01); correctness of binary insertion sort on doubles |
| C94 | Python numbers, `int` or `float` (`Py/Num`): an instance of the classes of the generic model; `expand` with operations that raise exceptions (`Model/IntExpand`) | nominal values: simulation of the program with integers by the program with floats; accuracy: the laws of the standard model hold for mixed operations with u = 2**-51, hence C84; exceptions: simulation of the model without exceptions; witness evaluated by the kernel |
| C95 | formulas of the programs (C84); the values of the variables are random variables of Mathlib (`Spec/Random`) | covariances of linear combinations; first-order expansion of the formulas, uniform on bounded sets; then C84; correlated numbers: random variables with the covariance matrix (`Spec/RandomCov`), by C100 |
| C96 | `wrap`, `partial_derivative`, `IndexableIter` for functions that change a state (`Model/WrapEffects`) | invariant of the caches over all calls; the calls are written down by the functions and compared with the documented list, by induction on the arguments |
| C97 | `std_dev`, `error_components` with doubles | rounding to 53 bits, products, squares, sums and square roots are monotonic on the results of operations (`Lemmas/Monotone`); induction on the terms of the sum |
| C98 | `expand`, `derivatives`, `error_components`, `std_dev` and the operators `+`, `-`, `abs` with the doubles of `Py/D64` | the loop of `expand` for the result is simulated step by step by the loop for the operand, with all the factors multiplied by the same sign (`Lemmas/Signs`); `1*x == x` and the oddness of rounding for doubles; the square root of the rounded square of a double (`Lemmas/SqrtSquare`) |
| C99 | `wrap` and `IndexableIter` with an iterator that has a state and can raise exceptions (`Model/WrapIterator`), functions with side effects | invariant: the cache holds the elements given by the iterator, in order, then converted `None`s once it has ended (`Lemmas/Iterator`); a call is the documented call of C96 for the list of these elements (`Lemmas/IteratorCalls`) |
| C100 | calculations (`Spec/Resume`: operators, wrapped and locally constant functions) on numbers of two programs | simulation between the two programs: the derivatives of each value are the same linear combination of those of the initial numbers (`Lemmas/Resume`); covariances are bilinear |
| C101 | what `wrap` reads from a callable: call, parameters, bound first parameter, `__name__` (`Model/Callables`) | the documented call (C19) of the function of the parameters that a call fills (`Spec/Callables`); counterexamples for bound methods and callables without name |
| C102 | `wrap` for functions that are programs with calls of wrapped functions, recursion included (`Model/WrapNested`) | invariant of all the caches, by induction on the recursion limit and on programs; documented calls without caches in `Spec/Nested` |
| C103 | arrays in C order, `numpy.vectorize` with and without `otypes`, broadcasting (`Model/Broadcast`) | broadcasting rules in `Spec/Broadcast`, induction on shapes; elements of the results through the history model |

## 3. Where the code violates a property

Each of these has a theorem about a concrete witness (or all inputs), and the part that holds is proved with the suffix
`_partial`.

| Finding | Theorem |
|---|---|
| F1 derivatives of `umath.frexp(x)[0]` raise TypeError, then give nothing | `C31_fails` |
| F2 `(1.23(4))e5`: the exponent is silently ignored | `C46_fails_shorthand`, `C46_exponent_ignored` |
| F3 `std_dev = -inf` is accepted | `C09_negation_minus_infinity` |
| F4 zero or NaN uncertainty with precision: the precision is used as a width, or ValueError | `C44_fails_*` |
| F5 `covariance_matrix` gives NaN where `std_dev` is 0 | `C12_negation` |
| F6 `int(x)`, `complex(x)`: the message says `float` | `C57_fails_message` |
| F7 concurrent or interrupted first reads give wrong derivatives | `C50_fails`, `C51_fails` |
| F8 `1/ufloat(1e200, 1)` raises OverflowError when derivatives are calculated | `C26_division_fails` |
| F9 `copy.deepcopy([x, x+x])` loses correlations | `C66_fails`, `C66_copies_uncorrelated` |
| F10 alignment `=` with a width raises ValueError | `C64_fails_equals` |
| F13 `correlated_values` with fewer tags than values drops variables | `C13_fails_few_tags` |
| F14 second run of 1to2 turns `uarray(*x)` into `uarray(**x)` | `C60_fails_uarray_twice` |
| F15 the parser ignores text after a newline, raises OverflowError... | `C47_fails_ignored`, `C47_fails_exceptions` |
| F17 coefficient of `ldexp` is an integer: OverflowError for large exponents | `C94_fails_overflow` (the commands of the machine use a float coefficient) |
| F18 `x % y`: numerical derivative wrong next to a jump | `C23_mod_fails` |
| F19 `gamma`, `lgamma`: the numerical derivative raises next to poles | `C28_gamma_fails` |
| F39 `x == x` is False for infinite standard deviations | `C15_infinite_std_dev_not_reflexive` |
| F42 `unumpy.arcsinh` does not exist | `C55_fails_asinh` |
| F43 a shorthand string with more than 308 decimals and a number of units between the parentheses is refused by the parser | example beside `C40_round_trip` |
| F44 `umath.modf`/`ldexp` of a number with uncertainty without variables | `C30_fails_constant` |
| F45 `ufloat("1.2(3)", 0.1)` silently uses the number as a tag | `C59_string_and_number` |
| F46 1to2 changes the meaning of `ufloat("1.23", 0.1)` | `C60_fails_ufloat_number`, `C60_fails_ufloat_twice` |
| F47 formatting a number of the order of 1e-324 raises ZeroDivisionError | `C65_fails_tiny` |
| F49 two exact variables can be equal and have different hashes | `C67_fails` |
| F50 subclasses: private slots and slots given by an iterator are lost by pickle; a slot `__weakref__` makes unpickling and copying raise; an attribute hidden by a class attribute is added to `__dict__` | `C68_fails_*` |
| F51 `copy.copy` of an object with a `__dict__` shares the `__dict__` | `C68_fails_copy` |
| F53 because of rounding, reading the derivatives of an intermediate result can change the last digits of the derivatives of the final result | `C71_fails_reads_exactly` (bounded by `C71_reads`) |
| F54 reading a result takes exponential work when intermediate results are used several times without being read (`x = x + x`, k times, then `x.std_dev`: 2^(k+1) - 2 terms), since `expand` does not share the work for common subexpressions | `C72_fails_shared` (reading each intermediate result avoids it: `C72_read_intermediate`) |
| F55 `IndexableIter.__getitem__` is not thread-safe: between `next(self.iterable)` and `returned_elements.append(value)` another thread can fetch and store the next element; the derivatives of the function are then exchanged for ever. `x**y`, `umath.log`, `umath.hypot` and wrapped functions without named parameters are concerned; the other operators fetch their derivatives when they are defined | `C73_fails`, `C73_fails_exchanged` |
| F56 a KeyboardInterrupt at the same point loses one derivative for ever: all the later calls use shifted derivatives | `C74_fails` |
| F57 shorthand notation with more than 308 decimals and an uncertainty below 1: `10.**prec` raises `OverflowError` (`'{:.309fS}'` of 1±0.1, `'{:eS}'` of 1e200±1e-200) | `C65_fails_shorthand` |
| F58 `'{:.1ue}'.format(ufloat(999999999999999.75, 0.1))` has a mantissa below 1 and the exponent 15: `log10` rounds up to 15 | `C76_exponent_fails` (bounded by `C76_exponent_partial`) |
| F59 `'{:.2ue}'.format(ufloat(12.34, 0.995))` is `(1.234+/-0.100)e+01`, with 3 significant digits for the uncertainty: the division by 10 changes the side of the tie | `C76_digits_fail` (bounded by `C76_uncertainty_digits_partial`) |
| F60 the mantissa can be 10: `'{:.1e}'` of 9.95e-21±1e-23 is `(10.0+/-0.0)e-21` | `C76_mantissa_ten` |
| F61 `'{:.1ue}'.format(ufloat(9.5, 1))` is `(0.9+/-0.1)e+01`: the exponent is that of `round(9.5)` = 10, but 0.95 is displayed as 0.9 | `C76_mantissa_below_one` |
| F62 `ufloat_fromstr('1.1(1)e2')` is 110.00000000000001±10: the exponent is applied by a multiplication, so that the result is not the nearest float | `C77_exponent_not_nearest` (bounded by `C77_shorthand`) |
| F63 `'{:f}'.format(ufloat(1234, 94.6))` is `1234+/-95`, but `'{:f}'.format(ufloat(1234, 95))` is `1234+/-100`: the number of digits is chosen for 9e1, but all the digits before the decimal point are printed | `C79_fixed_point_not_stable` |
| F64 with rounding, `covariance_matrix([x, 0.7*x])` for `x = ufloat(1, 1)` is `[[1, 0.7], [0.7, 0.48999999999999994]]`, which is not positive semi-definite | `C80_fails_positive` (bounded by `C80_covariance`) |
| F65 `ufloat_fromstr(repr(x))` raises `ValueError` for every variable with a tag (`< tag = 1.0+/-0.1 >`) | `C81_tag_unreadable` |
| F66 `correlation_matrix([x, 1.3*x])` with `x = ufloat(1, 0.1)` is not symmetric and has a diagonal element larger than 1 (rounding) | `C82_fails_exact` |
| F67 `abs(x - 0.25 - 2**53)` with `x = ufloat(2**53, 1)`: the derivative is 1 instead of -1, because the argument of `abs()` is rounded to 0 | `C84_fails_unsafe` |
| F68 With the default type or `g` and an infinite, NaN or zero value, zero padding and a precision: the digits of the precision are appended to those of the width (`'{:05.2}'.format(ufloat(nan, nan))` has two fields of 52 characters) | `C64_fails_precision_padding` |
| F69 `umath.fmod(x, y)` raises ValueError for `x` close to the largest double, because the numerical derivative is calculated with an infinite number, while `math.fmod` succeeds | `C28_fails_fmod` |
| F70 `1/y` with a small uncertain `y` (1e-200) raises ZeroDivisionError because `y**2` is 0 | `C26_fails_small` |
| F71 with doubles, `v = ufloat(1, 1); x = 0.1*v + 0.2*v; x == x` is False (and `x != x` True); it becomes True after `x.derivatives` is read; with `y = (0.1 + 0.2)*v`, `x == y` is False and `y == x` is True | `C87_fails_reflexive`, `C87_fails_reads`, `C87_fails_symmetric` |
| F72 independent variables with equal nominal values and small standard deviations (1e-200) compare equal: the squares underflow | `C87_fails_underflow` |
| F73 comparing numbers with large standard deviations (1e200) raises OverflowError | `C87_fails_overflow` |
| F77 `bool(ufloat(0, 1e-203))` is False, `ufloat(1, 1e-203) == 1` is True, and `bool(ufloat(0, 1e180))` raises OverflowError | `C87_fails_float_underflow`, `C87_fails_float_overflow` |
| F74 1to2 does not update `x.std_dev()**2` or `x.std_devs()[0]` | `C60_fails_std_dev_followed` |
| F75 a standard deviation read while another thread changes those of two variables can be one that the number never had | `C89_fails` |
| F76 idem for a single variable, if the derivative is infinite (`_std_dev` is read twice): NaN | `C89_fails_infinite` |
| F78 a covariance matrix calculated while another thread changes one variable can be one that never existed, and not be a covariance matrix at all (correlation of 2) | `C90_fails` |
| F79 a thread can get a correlation of 2, for numbers whose correlation is 1 at all times, if another thread changes a standard deviation during `correlation_matrix()` | `C92_fails` |
| F80 `ufloat(0, 1)` multiplied 20 times by `2**53`: the first reading of `std_dev` or `derivatives` raises OverflowError, then `std_dev` is 0 and `derivatives` is empty (`expand()` removes a term before it is multiplied) | `C94_fails`, `C94_fails_overflow` |
| F81 if a generator given as `derivatives_args` raises an exception, it only leaves the first call: the next calls silently use numerical derivatives for this argument and the next ones | `C99_generator_exception` |
| F82 when a bound method (or a class) is wrapped with derivatives, arguments given by keyword use the derivative of the *next* parameter: `inspect.getfullargspec()` includes `self` | `C101_fails_methods`, `C101_methods_shifted` |
| F83 callables without `__name__` (`functools.partial` objects, instances of classes that define `__call__`) cannot be wrapped: `AttributeError` | `C101_fails_unnamed` |
| F84 1to2 updates `x.set_std_dev(value=y)` to `x.std_dev = value=y`, which also changes the variable `value` of the program | `C60_fails_set_std_dev_keyword`, `C60_set_std_dev_keyword` |
| F85 1to2 updates calls of `set_std_dev()` inside expressions (`lambda`, list comprehensions, arguments) to code with a syntax error | `C60_fails_set_std_dev_expression` |
| F86 `unumpy.floor()`, `ceil()`, `isinf()`, `isnan()` and `trunc()` raise `ValueError` for empty arrays, when the other functions return an empty array | `C103_fails_empty` |
| F87 The results of these functions are converted to the NumPy type of the first result: `unumpy.floor([1, 1e30])` raises `OverflowError` | `C103_fails_type` |
| F52 long sums cannot be copied or pickled before their derivatives are read (RecursionError) | `C69_fails` |

## 4. Trusted base

* Lean 4.33.0's kernel. Axioms: `propext`, `Classical.choice`, `Quot.sound` only (`AXIOMS.md`, generated by
  `tools/axioms.py`). No `sorry`, no own axiom, no `native_decide`/`bv_decide`.
* Mathlib definitions used in statements (`HasDerivAt`, `Real.sqrt`, `Real.exp`..., `Matrix`, ...).
* The reading of the Python source recorded in the comments of the model, and the `Spec` modules as renderings of the
  English properties.
* Assumed about Python and NumPy: functions given to `wrap` are pure, deterministic, total or raising (except in C96, C99 and C102); `eigh`, `inv`,
  `pinv` satisfy their contracts; `math` functions only raise ValueError, ZeroDivisionError or OverflowError (C28);
  CPython formatting of floats is exact round-half-even; operations of `Model/Threads`, `Model/ThreadCalls`, `Model/ThreadStd` and `Model/ThreadCov` are atomic.

Not modelled: `deprecation` warnings and docstrings; Python's recursion limit (except in C69 and C102) and memory; the byte format of pickle;
Python 2 branches; data types other than float and object (the conversion of the results of locally constant functions is a parameter, C103);
broadcasting and arrays of more than two dimensions outside C103; arrays that are not stored in C order;
binary rounding in formatting and parsing except in C76-C78 (and there, overflow to infinity); non-ASCII digits in the parser; subclasses of the classes of the package,
except for pickling (C68), and properties of classes there;
`umath.factorial` and other functions that NumPy or Python versions add; the installation and test code.

## 5. Checks of the model against the code

These are tests of the model, not proofs, and no theorem depends on them.

* `Props/TestSuite.lean` holds the formatting (196) and parsing (32) examples of the package's own test suite. The kernel
  evaluates the model on them.
* The models of Python's `format`, `float`, `int` and of the regular expressions were compared with CPython on random
  inputs (1500, 12000 and 20000 cases). The only differences are for the type `%`, where CPython rounds `x*100` in
  binary. The package does not use that type.
