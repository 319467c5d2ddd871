import Verif.Model.Text

/-!
# Number of digits to be displayed

`first_digit`, `PDG_precision` and `signif_dgt_to_limit` (core.py 875-927, 1458-1485), with exact arithmetic.
-/

set_option autoImplicit false

namespace Unc

/-- Rounding to the nearest integer, ties to even: what `round()` and the `%.nf` formats do (CPython works on the
exact value of the float). -/
def rhe (q : ℚ) : ℤ :=
  let f := ⌊q⌋
  let r := q - f
  if r < 1 / 2 then f
  else if 1 / 2 < r then f + 1
  else if f % 2 = 0 then f else f + 1

/-- `round(q, n)`; `n` can be negative. -/
def pyRound (q : ℚ) (n : ℤ) : ℚ := (rhe (q * (10 : ℚ) ^ n) : ℚ) / (10 : ℚ) ^ n

/-- `first_digit` (core.py 875-887): `int(floor(log10(abs(value))))`, with an exact logarithm and floor, and 0 for the
`ValueError` raised by `log10(0)`.  Theorem `C35_first_digit_log` shows that it is the floor of the real logarithm. -/
def firstDigit (value : ℚ) : ℤ := if value = 0 then 0 else Int.log 10 |value|

/-- `int(x)` of a float: truncation. -/
def truncQ (q : ℚ) : ℤ := if q < 0 then ⌈q⌉ else ⌊q⌋

/-- `PDG_precision` (core.py 889-927).  Simplification: exact arithmetic.  The powers of ten cannot overflow here: the
exponent of a float is at most 308 and is reduced by 2. -/
def pdgPrecision (std : ℚ) : ℕ × ℚ :=
  let exponent := firstDigit std
  let ef : ℤ × ℚ := if 0 ≤ exponent then (exponent - 2, 1) else (exponent + 1, 1000)
  let digits := truncQ (std / (10 : ℚ) ^ ef.1 * ef.2)
  if digits ≤ 354 then (2, std)
  else if digits ≤ 949 then (1, std)
  else (2, (10 : ℚ) ^ ef.1 * (1000 / ef.2))

/-- `signif_dgt_to_limit` (core.py 1458-1485). -/
def signifDgtToLimit (value : ℚ) (numSignifD : ℤ) : ℤ :=
  let fstDigit := firstDigit value
  let limitNoRounding := fstDigit - numSignifD + 1
  let rounded := pyRound value (-limitNoRounding)
  let fstDigitRounded := firstDigit rounded
  if fstDigit < fstDigitRounded then limitNoRounding + 1 else limitNoRounding

end Unc
