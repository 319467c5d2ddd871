import Verif.Model.Decimal

/-!
# Python's `format(float, spec)` and `format(str, spec)`

`robust_format` (core.py 933) is the built-in `format`.  The specification strings given to it by `format_num` are
concatenations made by the code; whether they mean what was intended depends on how Python reads them.  This file
models how CPython reads and executes such specifications.
-/

set_option autoImplicit false

namespace Unc

/-- A format specification for a float: `[sign][0][width][,][.precision][type]`.  Simplification: the fill, alignment
and `#` parts never appear in the specifications built by `format_num`, and are not read. -/
structure FloatSpec where
  sign : Option Char := none
  zero : Bool := false
  width : ℕ := 0
  comma : Bool := false
  prec : Option ℕ := none
  type : Option Char := none
  deriving DecidableEq

/-- The precision and type at the end of a specification; `none`: `ValueError`. -/
def parsePrecType (s : Str) : Option (Option ℕ × Option Char) := do
  let (prec, s) ← match s with
    | '.' :: t =>
      if t.takeWhile isDigit = [] then none
      else some (some (digitsVal (t.takeWhile isDigit)), t.dropWhile isDigit)
    | t => some (none, t)
  match s with
  | [] => some (prec, none)
  | [c] => if c ∈ "eEfFgG%".toList then some (prec, some c) else none
  | _ => none

/-- How Python reads the specification of the format of a float; `none`: `ValueError`. -/
def parseFloatSpec (s : Str) : Option FloatSpec := do
  let (sign, s) := match s with
    | c :: t => if c ∈ "+- ".toList then (some c, t) else (none, c :: t)
    | [] => (none, [])
  let (zero, s) := match s with
    | '0' :: t => (true, t)
    | t => (false, t)
  let width := digitsVal (s.takeWhile isDigit)
  let s := s.dropWhile isDigit
  let (comma, s) := match s with
    | ',' :: t => (true, t)
    | t => (false, t)
  let (prec, type) ← parsePrecType s
  some { sign, zero, width, comma, prec, type }

/-- `n * 10**-p` printed with `p` digits after the decimal point: digits of the integer part, and decimal part with
its point. -/
def fixedParts (n p : ℕ) : Str × Str :=
  (natStr (n / 10 ^ p), if p = 0 then [] else '.' :: padDigits p n)

/-- The `p` significant digits (as an integer with `p` digits, 0 for 0) and the exponent of the first one, of a
non-negative number rounded to `p` significant digits. -/
def sigDigits (a : ℚ) (p : ℕ) : ℕ × ℤ :=
  if a = 0 then (0, 0)
  else
    let x := firstDigit a
    let n := (rhe (a / (10 : ℚ) ^ (x - p + 1))).natAbs
    if n = 10 ^ p then (10 ^ (p - 1), x + 1) else (n, x)

/-- Removal of the zeros at the end, the first digit being kept. -/
def dropTrailingZeros : Str → Str
  | [] => []
  | c :: s => c :: (s.reverse.dropWhile (· == '0')).reverse

/-- Decimal notation of digits whose first one has position `x`, without exponent.  `dot0`: write `.0` when there is
no digit after the decimal point. -/
def plainDigits (ds : Str) (x : ℤ) (dot0 : Bool) : Str × Str :=
  if 0 ≤ x then
    let k := x.toNat + 1
    let ip := ds.take k ++ List.replicate (k - ds.length) '0'
    let fp := ds.drop k
    (ip, if fp = [] then (if dot0 then ".0".toList else []) else '.' :: fp)
  else (['0'], '.' :: (List.replicate ((-x).toNat - 1) '0' ++ ds))

/-- Exponent notation. -/
def expNotation (ds : Str) (x : ℤ) (e : Char) : Str × Str :=
  (ds.take 1, (if ds.drop 1 = [] then [] else '.' :: ds.drop 1) ++ e :: expDigits x)

/-- The least number of decimals that gives the number exactly (at most `fuel`). -/
def decimalsNeeded (q : ℚ) : ℕ → ℕ
  | 0 => 0
  | k + 1 => if (q * (10 : ℚ) ^ decimalsNeeded q k).den = 1 then decimalsNeeded q k else k + 1

/-- The digits of `repr(a)` for a positive float, and the position of the first one.  Simplification: the decimal
expansion of the number if it has one; otherwise, 17 significant digits. -/
def reprDigits (a : ℚ) : Str × ℤ :=
  if a = 0 then (['0'], 0)
  else
    let k := decimalsNeeded a (Nat.log 2 a.den + 1)
    let b := a * (10 : ℚ) ^ k
    if b.den = 1 then (dropTrailingZeros (natStr b.num.natAbs), firstDigit a)
    else
      let r := sigDigits a 17
      (dropTrailingZeros (natStr r.1), r.2)

/-- The digits of the integer part of the formatted absolute value, and all that comes after them (decimal point and
digits after it, exponent, `%`), for a finite float and for each presentation type (CPython, `format_float_short`). -/
def finiteParts (a : ℚ) (type : Option Char) (prec : Option ℕ) : Str × Str :=
  match type with
  | none =>
    match prec with
    | none =>
      let (ds, x) := reprDigits a
      if -4 ≤ x ∧ x < 16 then plainDigits ds x true else expNotation ds x 'e'
    | some p =>
      let p := if p = 0 then 1 else p
      let (n, x) := sigDigits a p
      let ds := dropTrailingZeros (padDigits p n)
      if -4 ≤ x ∧ x < p - 1 then plainDigits ds x true else expNotation ds x 'e'
  | some c =>
    if c = 'f' ∨ c = 'F' then
      let p := prec.getD 6
      fixedParts (rhe (a * (10 : ℚ) ^ p)).natAbs p
    else if c = '%' then
      let p := prec.getD 6
      let (i, r) := fixedParts (rhe (a * 100 * (10 : ℚ) ^ p)).natAbs p
      (i, r ++ ['%'])
    else if c = 'e' ∨ c = 'E' then
      let p := prec.getD 6
      let (n, x) := sigDigits a (p + 1)
      expNotation (padDigits (p + 1) n) x c
    else
      let p := if prec.getD 6 = 0 then 1 else prec.getD 6
      let (n, x) := sigDigits a p
      let ds := dropTrailingZeros (padDigits p n)
      if -4 ≤ x ∧ x < p then plainDigits ds x false
      else expNotation ds x (if c = 'G' then 'E' else 'e')

/-- Is the presentation type an upper case one (`NAN`, `INF`)? -/
def upperType (type : Option Char) : Bool := type ∈ [some 'E', some 'F', some 'G']

/-- Is the formatted number negative, the digits of its integer part, and all that comes after. -/
def numberParts (x : FNum) (type : Option Char) (prec : Option ℕ) : Bool × Str × Str :=
  let percent : Str := if type = some '%' then ['%'] else []
  match x with
  | .fin q => (decide (q < 0), finiteParts |q| type prec)
  | .inf neg => (neg, [], (if upperType type then "INF" else "inf").toList ++ percent)
  | .nan => (false, [], (if upperType type then "NAN" else "nan").toList ++ percent)

/-- Digits grouped by three, with zeros added on the left so that the width is at least `w` and the first character
is not a separator (CPython, `_PyUnicode_InsertThousandsGrouping`); the digits and the result are reversed. -/
def groupRev : ℕ → Str → ℤ → Str
  | 0, _, _ => []
  | fuel + 1, ds, w =>
    let len := min 3 (max (max ds.length w.toNat) 1)
    let chunk := ds.take len ++ List.replicate (len - ds.length) '0'
    let rest := ds.drop len
    let w' := w - len
    if rest = [] ∧ w' ≤ 0 then chunk else chunk ++ ',' :: groupRev fuel rest (w' - 1)

/-- The digits of the integer part, with thousands separators and zero padding up to the width `w`. -/
def groupDigits (ds : Str) (comma : Bool) (w : ℤ) : Str :=
  if comma then (groupRev (ds.length + w.toNat + 1) ds.reverse w).reverse
  else List.replicate (w.toNat - ds.length) '0' ++ ds

/-- The sign printed. -/
def signStr (neg : Bool) (sign : Option Char) : Str :=
  if neg then ['-']
  else match sign with
    | some '+' => ['+']
    | some ' ' => [' ']
    | _ => []

/-- `format(x, spec)` for a specification that has been read (CPython, `format_float_internal`). -/
def formatWith (x : FNum) (f : FloatSpec) : Str :=
  let (neg, ds, rest) := numberParts x f.type f.prec
  let sg := signStr neg f.sign
  if f.zero then
    let w : ℤ := (f.width : ℤ) - sg.length - rest.length
    if ds = [] then sg ++ List.replicate w.toNat '0' ++ rest
    else sg ++ groupDigits ds f.comma w ++ rest
  else
    let r := sg ++ (if ds = [] then [] else groupDigits ds f.comma 0) ++ rest
    List.replicate (f.width - r.length) ' ' ++ r

/-- `format(x, spec)` for a float (core.py 933: `robust_format`). -/
def pyFormat (x : FNum) (spec : Str) : PyRes Str :=
  match parseFloatSpec spec with
  | some f => .ok (formatWith x f)
  | none => .error .valueError

/-- Alignment of a string in a field (`format(str, ...)`). -/
def padTo (s : Str) (fill align : Char) (width : ℕ) : Str :=
  let n := width - s.length
  if align = '<' then s ++ List.replicate n fill
  else if align = '^' then List.replicate (n / 2) fill ++ s ++ List.replicate (n - n / 2) fill
  else List.replicate n fill ++ s

/-- `robust_align` (core.py 954-970): `format(orig_str, fill_char+align_option+width)`.  `fill_char` has at most one
character, `align_option` is one of `<>=^` and `width` contains digits only; Python reads a `0` at the beginning of
the width as the fill character, when there is no fill character; `=` is refused for strings. -/
def robustAlign (s fill : Str) (align : Char) (width : Str) : PyRes Str :=
  if align = '=' then .error .valueError
  else
    let fillChar := match fill with
      | c :: _ => c
      | [] => if width.head? = some '0' then '0' else ' '
    .ok (padTo s fillChar align (digitsVal width))

end Unc
