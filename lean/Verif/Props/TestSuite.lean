import Verif.Model.Parse

/-
The examples of formatting and parsing of the test suite of the package (test_uncertainties.py 309-357, 1543-2124), as
a check that the model does what the code does. These are tests of the model, not properties. Not included: three
examples for (0.42±0.0055)%, for which the binary rounding of 0.0055*100 changes the last digit.
-/

namespace Unc

set_option autoImplicit false

/-- Nominal value, standard deviation, format, expected result (test_uncertainties.py 1562-2090). -/
def formatExamples : List (FNum × FNum × String × String) := [
  (.fin (6283 / 2000), .fin (1 / 10000), "+09.2uf", "+03.14150+/-000.00010"),
  (.fin (123456789 / 1000000), .fin (123 / 100000), ".1uf", "123.457+/-0.001"),
  (.fin (123456789 / 1000000), .fin (123 / 100000), ".2uf", "123.4568+/-0.0012"),
  (.fin (123456789 / 1000000), .fin (123 / 100000), ".3uf", "123.45679+/-0.00123"),
  (.fin (123456789 / 1000000), .fin (123 / 100000), ".2ue", "(1.234568+/-0.000012)e+02"),
  (.fin ((-123456789) / 1000000), .fin (123 / 100000), ".1uf", "-123.457+/-0.001"),
  (.fin ((-123456789) / 1000000), .fin (123 / 100000), ".2uf", "-123.4568+/-0.0012"),
  (.fin ((-123456789) / 1000000), .fin (123 / 100000), ".3uf", "-123.45679+/-0.00123"),
  (.fin ((-123456789) / 1000000), .fin (123 / 100000), ".2ue", "(-1.234568+/-0.000012)e+02"),
  (.fin (123 / 10), .fin (22839 / 50), ".1ue", "(0+/-5)e+02"),
  (.fin (123 / 10), .fin (22839 / 50), ".4ue", "(0.123+/-4.568)e+02"),
  (.fin (123 / 10), .fin (22839 / 50), ".4ueS", "0.123(4.568)e+02"),
  (.fin (23456789123 / 1000000), .fin (123456789123 / 100000000), ".6gS", "23456.8(1234.6)"),
  (.fin (123456789 / 100), .fin (1 / 10), ".0e", "(1+/-0)e+06"),
  (.fin (123456789 / 100), .fin (1 / 10), "e", "(1.23456789+/-0.00000010)e+06"),
  (.fin (123456789 / 100), .fin (1 / 10), "E", "(1.23456789+/-0.00000010)E+06"),
  (.fin (123456789 / 100), .fin (1 / 10), "f", "1234567.89+/-0.10"),
  (.fin (123456789 / 100), .fin (1 / 10), "F", "1234567.89+/-0.10"),
  (.fin (123456789 / 100), .fin (1 / 10), "g", "1234567.89+/-0.10"),
  (.fin (123456789 / 100), .fin (1 / 10), "G", "1234567.89+/-0.10"),
  (.fin (123456789 / 100), .fin (1 / 10), "%", "(123456789+/-10)%"),
  (.fin (123456789 / 100), .fin (43 / 10), "g", "1234568+/-4"),
  (.fin (123456789 / 100), .fin 43, "g", "(1.23457+/-0.00004)e+06"),
  (.fin (123456789 / 100), .fin 43, "G", "(1.23457+/-0.00004)E+06"),
  (.fin (123456789 / 100000), .fin (1 / 10), "eL", "\\left(1.23457 \\pm 0.00010\\right) \\times 10^{3}"),
  (.fin (123456789 / 100000), .fin (1 / 10), "EL", "\\left(1.23457 \\pm 0.00010\\right) \\times 10^{3}"),
  (.fin (123456789 / 100000), .fin (1 / 10), "fL", "1234.57 \\pm 0.10"),
  (.fin (123456789 / 100000), .fin (1 / 10), "FL", "1234.57 \\pm 0.10"),
  (.fin (123456789 / 100000), .fin (1 / 10), "%L", "\\left(123457 \\pm 10\\right) \\%"),
  (.fin (6172839 / 5000000), .fin (177 / 500), "", "1.23+/-0.35"),
  (.fin (6172839 / 5000000), .fin (3549 / 10000), "", "1.23+/-0.35"),
  (.fin (6172839 / 5000000), .fin (71 / 200), "", "1.2+/-0.4"),
  (.fin (7839 / 5000), .fin (71 / 200), "", "1.6+/-0.4"),
  (.fin (6172839 / 5000000), .fin (9499 / 100000), "", "1.23+/-0.09"),
  (.fin (6172839 / 5000000), .fin (19 / 200), "", "1.23+/-0.10"),
  (.fin 1000, .fin 123, ".1uf", "1000+/-123"),
  (.fin 1000, .fin 123, ".1ue", "(1.0+/-0.1)e+03"),
  (.fin ((-123) / 100), .fin (17 / 5), "SL", "-1.2(3.4)"),
  (.fin ((-123) / 100), .fin (17 / 5), "LS", "-1.2(3.4)"),
  (.fin ((-123) / 100), .fin (17 / 5), ".2ufSL", "-1.2(3.4)"),
  (.fin ((-123) / 100), .fin (17 / 5), ".2ufLS", "-1.2(3.4)"),
  (.fin ((-15432) / 125), .fin (123 / 1000), "S", "-123.46(12)"),
  (.fin ((-15432) / 125), .fin (123 / 1000), ".1ufS", "-123.5(1)"),
  (.fin ((-15432) / 125), .fin (123 / 1000), ".2ufS", "-123.46(12)"),
  (.fin ((-15432) / 125), .fin (123 / 1000), ".3ufS", "-123.456(123)"),
  (.fin ((-15432) / 125), .fin (567 / 1000), "S", "-123.5(6)"),
  (.fin ((-15432) / 125), .fin (567 / 1000), ".1ufS", "-123.5(6)"),
  (.fin ((-15432) / 125), .fin (567 / 1000), ".2ufS", "-123.46(57)"),
  (.fin ((-15432) / 125), .fin (567 / 1000), ".3ufS", "-123.456(567)"),
  (.fin ((-15432) / 125), .fin (1 / 250), ".2fS", "-123.46(0.00)"),
  (.fin ((-3) / 2500000000000), .fin 0, "12.2gPL", "  -1.2×10⁻¹²±           0"),
  (.fin ((-3) / 2500000000000), .fin 0, "13S", "  -1.2(0)e-12"),
  (.fin ((-3) / 2500000000000), .fin 0, "10P", "-1.2×10⁻¹²±         0"),
  (.fin ((-3) / 2500000000000), .fin 0, "L", "\\left(-1.2 \\pm 0\\right) \\times 10^{-12}"),
  (.fin ((-3) / 2500000000000), .fin 0, "1L", "-1.2 \\times 10^{-12} \\pm 0"),
  (.fin ((-3) / 2500000000000), .fin 0, "SL", "-1.2(0) \\times 10^{-12}"),
  (.fin ((-3) / 2500000000000), .fin 0, "SP", "-1.2(0)×10⁻¹²"),
  (.fin ((-3) / 2500000000000), .nan, ".2uG", "(-1.2+/-NAN)E-12"),
  (.fin ((-3) / 2500000000000), .nan, "15GS", "  -1.2(NAN)E-12"),
  (.fin ((-3) / 2500000000000), .nan, "SL", "-1.2(\\mathrm{nan}) \\times 10^{-12}"),
  (.fin ((-3) / 2500000000000), .nan, "PSL", "-1.2(\\mathrm{nan})×10⁻¹²"),
  (.fin ((-3) / 2500000000000), .nan, "L", "\\left(-1.2 \\pm \\mathrm{nan}\\right) \\times 10^{-12}"),
  (.fin ((-3) / 2500000000000), .nan, ".1EL", "\\left(-1.2 \\pm \\mathrm{NAN}\\right) \\times 10^{-12}"),
  (.fin ((-3) / 2500000000000), .nan, "10", "  -1.2e-12+/-       nan"),
  (.fin ((-3) / 2500000000000), .nan, "15S", "  -1.2(nan)e-12"),
  (.fin (157 / 500000000000), .fin (1 / 1000000000000), "P", "(3.140±0.010)×10⁻¹⁰"),
  (.fin (157 / 500000000000), .fin (1 / 1000000000000), "PL", "(3.140±0.010)×10⁻¹⁰"),
  (.fin (157 / 500000000000), .fin (1 / 1000000000000), ".1e", "(3.1+/-0.0)e-10"),
  (.fin (157 / 500000000000), .fin (1 / 1000000000000), ".1eS", "3.1(0.0)e-10"),
  (.fin 1, .nan, "g", "1+/-nan"),
  (.fin 1, .nan, "G", "1+/-NAN"),
  (.fin 1, .nan, "%", "(100.000000+/-nan)%"),
  (.fin 1, .nan, "+05g", "+0001+/-00nan"),
  (.fin 1, .nan, "+05%", "(+100.000000+/-00nan)%"),
  (.fin 1, .nan, "", "1.0+/-nan"),
  (.fin 1, .nan, "+05", "+01.0+/-00nan"),
  (.fin (99 / 10), .fin (1 / 10), ".1ue", "(9.9+/-0.1)e+00"),
  (.fin (99 / 10), .fin (1 / 10), ".0fS", "10(0.)"),
  (.fin (999 / 100), .fin (1 / 10), ".2ue", "(9.99+/-0.10)e+00"),
  (.fin (999 / 100), .fin (1 / 10), ".1ue", "(1.00+/-0.01)e+01"),
  (.fin (2469 / 2000), .fin 0, ".2ue", "(1.23+/-0)e+00"),
  (.fin (2469 / 2000), .fin 0, "1.2ue", "1.23e+00+/-0"),
  (.fin (2469 / 2000), .fin 0, ".2uf", "1.23+/-0"),
  (.fin (2469 / 2000), .fin 0, ".2ufS", "1.23(0)"),
  (.fin (2469 / 2000), .fin 0, ".2fS", "1.23(0)"),
  (.fin (2469 / 2000), .fin 0, "g", "1.2345+/-0"),
  (.fin (2469 / 2000), .fin 0, "", "1.2345+/-0"),
  (.fin 31415000000, .fin 0, "<15", "31415000000.0  +/-0              "),
  (.fin 31415000000, .fin 0, "<20S", "31415000000.0(0)    "),
  (.fin 31415000000, .fin 0, "=>15", "==31415000000.0+/-==============0"),
  (.fin (123456789 / 100000), .fin 0, "1.2ue", "1.23e+03+/-0"),
  (.fin (123456789 / 100000), .fin 0, "1.2e", "1.23e+03+/-0"),
  (.fin (123456789 / 100000), .fin 0, "eL", "\\left(1.234568 \\pm 0\\right) \\times 10^{3}"),
  (.fin (123456789 / 100000), .fin 0, "EL", "\\left(1.234568 \\pm 0\\right) \\times 10^{3}"),
  (.fin (123456789 / 100000), .fin 0, "fL", "1234.567890 \\pm 0"),
  (.fin (123456789 / 100000), .fin 0, "FL", "1234.567890 \\pm 0"),
  (.fin (123456789 / 100000), .fin 0, "%L", "\\left(123456.789000 \\pm 0\\right) \\%"),
  (.fin 100000, .fin 0, "g", "100000+/-0"),
  (.fin 1000000, .fin 0, "g", "(1+/-0)e+06"),
  (.fin 1000010, .fin 0, "g", "(1.00001+/-0)e+06"),
  (.fin 1, .fin (497 / 500), ".3uf", "1.000+/-0.994"),
  (.fin 1, .fin (497 / 500), ".2uf", "1.00+/-0.99"),
  (.fin 1, .fin (497 / 500), ".1uf", "1+/-1"),
  (.fin (123 / 10), .fin (23 / 10), ".1ufS", "12(2)"),
  (.fin 0, .fin 0, ".1f", "0.0+/-0"),
  (.fin 0, .fin 0, "g", "0+/-0"),
  (.fin (3 / 25000000000000000000000000000000000), .fin (1 / 2000000000000000000000000000000000000000000000000000000000000000000), ".6g", "(1.20000+/-0.00000)e-34"),
  (.fin (3 / 25000000000000000000000000000000000), .fin (1 / 2000000000000000000000000000000000000000000000000000000000000000000), "13.6g", "  1.20000e-34+/-  0.00000e-34"),
  (.fin (3 / 25000000000000000000000000000000000), .fin (1 / 2000000000000000000000000000000000000000000000000000000000000000000), "13.6G", "  1.20000E-34+/-  0.00000E-34"),
  (.fin (3 / 25000000000000000000000000000000000), .fin (1 / 2000000000000000000000000000000000000000000000000000000000000000000), ".6GL", "\\left(1.20000 \\pm 0.00000\\right) \\times 10^{-34}"),
  (.fin (3 / 25000000000000000000000000000000000), .fin (1 / 2000000000000000000000000000000000000000000000000000000000000000000), ".6GLp", "\\left(1.20000 \\pm 0.00000\\right) \\times 10^{-34}"),
  (.nan, .fin 100, "", "nan+/-100.0"),
  (.nan, .fin 100, "g", "nan+/-100"),
  (.nan, .fin 100, ".1e", "(nan+/-1.0)e+02"),
  (.nan, .fin 100, ".1E", "(NAN+/-1.0)E+02"),
  (.nan, .fin 100, ".1ue", "(nan+/-1)e+02"),
  (.nan, .fin 100, "10.1e", "       nan+/-   1.0e+02"),
  (.nan, .fin 100000000, "", "nan+/-100000000.0"),
  (.nan, .fin 100000000, "g", "(nan+/-1)e+08"),
  (.nan, .fin 100000000, ".1e", "(nan+/-1.0)e+08"),
  (.nan, .fin 100000000, ".1E", "(NAN+/-1.0)E+08"),
  (.nan, .fin 100000000, ".1ue", "(nan+/-1)e+08"),
  (.nan, .fin 100000000, "10.1e", "       nan+/-   1.0e+08"),
  (.nan, .fin 123456789, "", "nan+/-123456789.0"),
  (.nan, .fin 123456789, "g", "(nan+/-1.23457)e+08"),
  (.nan, .fin 123456789, ".1e", "(nan+/-1.2)e+08"),
  (.nan, .fin 123456789, ".1E", "(NAN+/-1.2)E+08"),
  (.nan, .fin 123456789, ".1ue", "(nan+/-1)e+08"),
  (.nan, .fin 123456789, ".1ueL", "\\left(\\mathrm{nan} \\pm 1\\right) \\times 10^{8}"),
  (.nan, .fin 123456789, "10.1e", "       nan+/-   1.2e+08"),
  (.nan, .fin 123456789, "10.1eL", "\\mathrm{nan} \\pm 1.2 \\times 10^{8}"),
  (.nan, .nan, "", "nan+/-nan"),
  (.nan, .nan, ".1e", "nan+/-nan"),
  (.nan, .nan, ".1E", "NAN+/-NAN"),
  (.nan, .nan, ".1ue", "nan+/-nan"),
  (.nan, .nan, "EL", "\\mathrm{NAN} \\pm \\mathrm{NAN}"),
  (.inf false, .fin 100, "", "inf+/-100.0"),
  (.inf false, .fin 100, "g", "inf+/-100"),
  (.inf false, .fin 100, ".1e", "(inf+/-1.0)e+02"),
  (.inf false, .fin 100, ".1E", "(INF+/-1.0)E+02"),
  (.inf false, .fin 100, ".1ue", "(inf+/-1)e+02"),
  (.inf false, .fin 100, "10.1e", "       inf+/-   1.0e+02"),
  (.inf false, .fin 100000000, "", "inf+/-100000000.0"),
  (.inf false, .fin 100000000, "g", "(inf+/-1)e+08"),
  (.inf false, .fin 100000000, ".1e", "(inf+/-1.0)e+08"),
  (.inf false, .fin 100000000, ".1E", "(INF+/-1.0)E+08"),
  (.inf false, .fin 100000000, ".1ue", "(inf+/-1)e+08"),
  (.inf false, .fin 100000000, "10.1e", "       inf+/-   1.0e+08"),
  (.inf false, .fin 123456789, "", "inf+/-123456789.0"),
  (.inf false, .fin 123456789, "g", "(inf+/-1.23457)e+08"),
  (.inf false, .fin 123456789, ".1e", "(inf+/-1.2)e+08"),
  (.inf false, .fin 123456789, ".1ep", "(inf+/-1.2)e+08"),
  (.inf false, .fin 123456789, ".1E", "(INF+/-1.2)E+08"),
  (.inf false, .fin 123456789, ".1ue", "(inf+/-1)e+08"),
  (.inf false, .fin 123456789, ".1ueL", "\\left(\\infty \\pm 1\\right) \\times 10^{8}"),
  (.inf false, .fin 123456789, ".1ueLp", "\\left(\\infty \\pm 1\\right) \\times 10^{8}"),
  (.inf false, .fin 123456789, "10.1e", "       inf+/-   1.2e+08"),
  (.inf false, .fin 123456789, "10.1eL", "    \\infty \\pm 1.2 \\times 10^{8}"),
  (.inf false, .inf false, "", "inf+/-inf"),
  (.inf false, .inf false, ".1e", "inf+/-inf"),
  (.inf false, .inf false, ".1E", "INF+/-INF"),
  (.inf false, .inf false, ".1ue", "inf+/-inf"),
  (.inf false, .inf false, "EL", "\\infty \\pm \\infty"),
  (.inf false, .inf false, "ELp", "\\left(\\infty \\pm \\infty\\right)"),
  (.inf true, .fin 100, "", "-inf+/-100.0"),
  (.inf true, .fin 100, "g", "-inf+/-100"),
  (.inf true, .fin 100, ".1e", "(-inf+/-1.0)e+02"),
  (.inf true, .fin 100, ".1E", "(-INF+/-1.0)E+02"),
  (.inf true, .fin 100, ".1ue", "(-inf+/-1)e+02"),
  (.inf true, .fin 100, "10.1e", "      -inf+/-   1.0e+02"),
  (.inf true, .fin 100000000, "", "-inf+/-100000000.0"),
  (.inf true, .fin 100000000, "g", "(-inf+/-1)e+08"),
  (.inf true, .fin 100000000, ".1e", "(-inf+/-1.0)e+08"),
  (.inf true, .fin 100000000, ".1E", "(-INF+/-1.0)E+08"),
  (.inf true, .fin 100000000, ".1ue", "(-inf+/-1)e+08"),
  (.inf true, .fin 100000000, "10.1e", "      -inf+/-   1.0e+08"),
  (.inf true, .fin 123456789, "", "-inf+/-123456789.0"),
  (.inf true, .fin 123456789, "g", "(-inf+/-1.23457)e+08"),
  (.inf true, .fin 123456789, ".1e", "(-inf+/-1.2)e+08"),
  (.inf true, .fin 123456789, ".1E", "(-INF+/-1.2)E+08"),
  (.inf true, .fin 123456789, ".1ue", "(-inf+/-1)e+08"),
  (.inf true, .fin 123456789, ".1ueL", "\\left(-\\infty \\pm 1\\right) \\times 10^{8}"),
  (.inf true, .fin 123456789, "10.1e", "      -inf+/-   1.2e+08"),
  (.inf true, .fin 123456789, "10.1eL", "   -\\infty \\pm 1.2 \\times 10^{8}"),
  (.inf true, .inf false, "S", "-inf(inf)"),
  (.inf true, .inf false, "LS", "-\\infty(\\infty)"),
  (.inf true, .inf false, "L", "-\\infty \\pm \\infty"),
  (.inf true, .inf false, "LP", "-\\infty±\\infty"),
  (.fin (3621 / 5), .fin (132 / 5), "", "724+/-26"),
  (.fin (3621 / 5), .fin (132 / 5), "p", "(724+/-26)"),
  (.fin 724, .fin 0, "", "724.0+/-0"),
  (.nan, .inf false, "S", "nan(inf)"),
  (.nan, .inf false, "LS", "\\mathrm{nan}(\\infty)"),
  (.nan, .inf false, "L", "\\mathrm{nan} \\pm \\infty"),
  (.nan, .inf false, "LP", "\\mathrm{nan}±\\infty"),
  (.fin (-2), .fin 3, "020S", "-000000000002.0(3.0)")]

/-- String, nominal value and standard deviation (test_uncertainties.py 313-357). -/
def parseExamples : List (String × FNum × FNum) := [
  ("-1.23(3.4)", .fin ((-123) / 100), .fin (17 / 5)),
  ("  -1.23(3.4)  ", .fin ((-123) / 100), .fin (17 / 5)),
  ("-1.34(5)", .fin ((-67) / 50), .fin (1 / 20)),
  ("1(6)", .fin 1, .fin 6),
  ("3(4.2)", .fin 3, .fin (21 / 5)),
  ("-9(2)", .fin (-9), .fin 2),
  ("1234567(1.2)", .fin 1234567, .fin (6 / 5)),
  ("12.345(15)", .fin (2469 / 200), .fin (3 / 200)),
  ("-12.3456(78)e-6", .fin ((-1929) / 156250000), .fin (39 / 5000000000)),
  ("0.29", .fin (29 / 100), .fin (1 / 100)),
  ("31.", .fin 31, .fin 1),
  ("-31.", .fin (-31), .fin 1),
  ("31", .fin 31, .fin 1),
  ("-3.1e10", .fin (-31000000000), .fin 1000000000),
  ("169.0(7)", .fin 169, .fin (7 / 10)),
  ("-0.1+/-1", .fin ((-1) / 10), .fin 1),
  ("-13e-2+/-1e2", .fin ((-13) / 100), .fin 100),
  ("-14.(15)", .fin (-14), .fin 15),
  ("-100.0(15)", .fin (-100), .fin (3 / 2)),
  ("14.(15)", .fin 14, .fin 15),
  ("(3.141+/-0.001)E+02", .fin (3141 / 10), .fin (1 / 10)),
  ("(3.141±0.001)E+02", .fin (3141 / 10), .fin (1 / 10)),
  ("3.141E+02±0.001e2", .fin (3141 / 10), .fin (1 / 10)),
  ("(3.141 ± 0.001) × 10²", .fin (3141 / 10), .fin (1 / 10)),
  ("(2 +/- 0.1)", .fin 2, .fin (1 / 10)),
  ("(3.141±nan)E+02", .fin (3141 / 10), .nan),
  ("3.141e+02+/-nan", .fin (3141 / 10), .nan),
  ("3.4(nan)e10", .fin 34000000000, .nan),
  ("nan+/-3.14e2", .nan, .fin 314),
  ("(-3.1415 +/- 1e-4)e+200", .fin (-314150000000000000000000000000000000000000000000000000000000000000000000000000000000000000000000000000000000000000000000000000000000000000000000000000000000000000000000000000000000000000000000000000000), .fin 10000000000000000000000000000000000000000000000000000000000000000000000000000000000000000000000000000000000000000000000000000000000000000000000000000000000000000000000000000000000000000000000000000),
  ("(-3.1415e-10 +/- 1e-4)e+200", .fin (-31415000000000000000000000000000000000000000000000000000000000000000000000000000000000000000000000000000000000000000000000000000000000000000000000000000000000000000000000000000000000000000000), .fin 10000000000000000000000000000000000000000000000000000000000000000000000000000000000000000000000000000000000000000000000000000000000000000000000000000000000000000000000000000000000000000000000000000),
  ("-3(0.)", .fin (-3), .fin 0)]

/-- The result of `format()` is the expected one. -/
def formatOk (c : FNum × FNum × String × String) : Bool :=
  match formatU c.1 c.2.1 c.2.2.1.toList with
  | .ok s => s = c.2.2.2.toList
  | .error _ => false

/-- The result of `ufloat_fromstr()` is the expected one. -/
def parseOk (c : String × FNum × FNum) : Bool :=
  match ufloatFromstr (F := FNum) ("  ".toList ++ c.1.toList ++ "  ".toList) with
  | .ok r => r = c.2
  | .error _ => false

set_option maxRecDepth 10000 in
example : formatExamples.all formatOk = true := by decide +kernel

set_option maxRecDepth 10000 in
example : parseExamples.all parseOk = true := by decide +kernel

end Unc
