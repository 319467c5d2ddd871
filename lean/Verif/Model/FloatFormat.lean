import Verif.Model.Format

/-!
# Formatting with floating-point arithmetic

The calculations of `__format__`, `format_num`, `first_digit`, `PDG_precision` and `signif_dgt_to_limit` (core.py 875-927,
1042-1485, 1865-2333) again, this time with an explicit rounding after each floating-point operation, where
`Model/Decimal.lean` and `Model/Format.lean` have exact arithmetic.  Texts (`format()`, `%`) are made from the exact value of
the floats in both models, as in CPython.

Simplification: the operations have no overflow to infinity (the range of floats is only taken into account for the powers of
ten, as in `pow10` and `mantissaFactor`).  The theorems are about numbers for which it does not happen.
-/

set_option autoImplicit false

namespace Unc

/-- The floating-point operations used for formatting. -/
structure FlOps where
  /-- The float that represents the exact result of an operation. -/
  rnd : ℚ → ℚ
  /-- `int(math.floor(math.log10(v)))` for a positive float `v`. -/
  logFloor : ℚ → ℤ
  /-- `10.**e` -/
  ten : ℤ → ℚ

namespace FlOps

variable (f : FlOps)

/-- `round(v, n)` of a float: the float that represents the exactly rounded value. -/
def round (v : ℚ) (n : ℤ) : ℚ := f.rnd (pyRound v n)

/-- `first_digit` (core.py 875-887). -/
def firstDigit (v : ℚ) : ℤ := if v = 0 then 0 else f.logFloor |v|

/-- `PDG_precision` (core.py 889-927). -/
def pdgPrecision (std : ℚ) : ℕ × ℚ :=
  let exponent := f.firstDigit std
  let ef : ℤ × ℚ := if 0 ≤ exponent then (exponent - 2, 1) else (exponent + 1, 1000)
  let digits := truncQ (f.rnd (f.rnd (std / f.ten ef.1) * ef.2))
  if digits ≤ 354 then (2, std)
  else if digits ≤ 949 then (1, std)
  else (2, f.rnd (f.ten ef.1 * (1000 / ef.2)))

/-- `signif_dgt_to_limit` (core.py 1458-1485). -/
def signifDgtToLimit (value : ℚ) (numSignifD : ℤ) : ℤ :=
  let fstDigit := f.firstDigit value
  let limitNoRounding := fstDigit - numSignifD + 1
  let rounded := f.round value (-limitNoRounding)
  let fstDigitRounded := f.firstDigit rounded
  if fstDigit < fstDigitRounded then limitNoRounding + 1 else limitNoRounding

/-- `uncert_str` for a finite, non-zero error in the shorthand notation (core.py 1195-1220). -/
def shorthandUncert (errorMain : ℚ) (prec : ℕ) : PyRes Str :=
  let uncert := f.round errorMain prec
  if 0 ≤ f.firstDigit uncert ∧ 0 < prec then
    -- '%.*f' % (prec, uncert)
    let r := fixedParts (rhe (|uncert| * (10 : ℚ) ^ prec)).natAbs prec
    pure ((if uncert < 0 then ['-'] else []) ++ r.1 ++ r.2)
  else if uncert ≠ 0 then
    if 308 < prec then throw .overflowError
    else pure (intStr (rhe (f.rnd (uncert * f.ten prec))))
  else pure "0.".toList

/-- `uncert_str` (core.py 1181-1220). -/
def uncertStr (errorMain : FNum) (prec : ℕ) (mainPresType : Char) (options : Str) : PyRes Str :=
  match errorMain with
  | .fin q => if q = 0 then pure ['0'] else f.shorthandUncert q prec
  | y => Unc.uncertStr y prec mainPresType options

/-- The shorthand notation (core.py 1177-1279). -/
def formatShorthand (nomMain errorMain : FNum) (commonExp : Option ℤ) (p : FmtParts) (prec : ℕ)
    (mainPresType : Char) (options : Str) : PyRes Str := do
  let uncert ← f.uncertStr errorMain prec mainPresType options
  let valueEnd := '(' :: uncert ++ ')' :: expStr commonExp mainPresType options ++ percentStr options
  let fmtPrefixN :=
    if p.zero ≠ [] ∧ p.width ≠ [] then
      p.sign ++ p.zero ++ natStr (digitsVal p.width - valueEnd.length) ++ p.comma
    else p.sign ++ p.comma
  let nomStr ← pyFormat nomMain (fmtPrefixN ++ fmtSuffixN errorMain p prec mainPresType)
  let nomStr := latexNom options nomMain nomStr
  let valueStr := nomStr ++ valueEnd
  if p.width ≠ [] then robustAlign valueStr p.fill (effectiveAlign p) p.width
  else pure valueStr

/-- `format_num` (core.py 1042-1456); there is no arithmetic in the ± notation. -/
def formatNum (nomMain errorMain : FNum) (commonExp : Option ℤ) (p : FmtParts) (prec : ℕ)
    (mainPresType : Char) (options : Str) : PyRes Str :=
  if 'S' ∈ options then f.formatShorthand nomMain errorMain commonExp p prec mainPresType options
  else formatPm nomMain errorMain commonExp p prec mainPresType options

/-- `digits_limit`, and the standard deviation to be displayed (core.py 2082-2189).  The type is `f` for `%`. -/
def digitsLimit (p : FmtParts) (presType : Option Char) (nom std : FNum) : PyRes (Option ℤ × FNum × ℕ) :=
  let reals := realValues nom std
  let fmtPrec := p.prec.getD []
  let uncertControl : Bool := (fmtPrec = [] ∧ reals.length = 2) ∨ p.uncertPrec ≠ []
  match uncertControl, std with
  | true, .fin s =>
    if s ≠ 0 then
      if fmtPrec ≠ [] then
        if digitsVal fmtPrec = 0 then throw .valueError
        else pure (some (f.signifDgtToLimit s (digitsVal fmtPrec)), std, 0)
      else
        let r := f.pdgPrecision s
        pure (some (f.signifDgtToLimit r.2 r.1), .fin r.2, 0)
    else floatLimit fmtPrec reals
  | _, _ => floatLimit fmtPrec reals
where
  /-- No control of the number of significant digits of the uncertainty (core.py 2119-2189). -/
  floatLimit (fmtPrec : Str) (reals : List ℚ) : PyRes (Option ℤ × FNum × ℕ) :=
    let prec : ℕ := if fmtPrec ≠ [] then digitsVal fmtPrec else if presType = none then 12 else 6
    if presType = some 'f' ∨ presType = some 'F' then pure (some (-prec), std, prec)
    else
      let numSignif : ℕ :=
        if presType = some 'e' ∨ presType = some 'E' then prec + 1 else if prec = 0 then 1 else prec
      match expRefValue reals with
      | some v => pure (some (f.signifDgtToLimit v numSignif), std, prec)
      | none => pure (none, std, prec)

/-- `use_exp` and `common_exp` (core.py 2200-2250): the common exponent, if one is used. -/
def commonExponent (presType : Option Char) (reals : List ℚ) (limit : Option ℤ) : Option ℤ :=
  if presType = some 'f' ∨ presType = some 'F' then none
  else match expRefValue reals, limit with
    | some v, some limit =>
      let e := f.firstDigit (f.round v (-limit))
      if presType = some 'e' ∨ presType = some 'E' then some e
      else if -4 ≤ e ∧ e < e - limit + 1 then none else some e
    | _, _ => none

/-- `10.**common_exp`, as a divisor (core.py 2265-2269). -/
def mantissaFactor (e : ℤ) : PyRes ℚ :=
  if e < -323 then throw .zeroDivisionError else if 308 < e then throw .overflowError else pure (f.ten e)

/-- `x*100`, `x/factor` -/
def scale (x : FNum) (k : ℚ) : FNum := match x with | .fin q => .fin (f.rnd (q * k)) | y => y

/-- The calculations of `__format__` (core.py 2016-2313), for a specification that has been read. -/
def formatPlan (p : FmtParts) (nom std : FNum) : PyRes Plan := do
  let isPercent := p.type = ['%']
  let presType : Option Char := if isPercent then some 'f' else p.type.head?
  let nom := if isPercent then f.scale nom 100 else nom
  let std := if isPercent then f.scale std 100 else std
  let options := if isPercent then '%' :: p.options else p.options
  let reals := realValues nom std
  let (limit, std, prec) ← f.digitsLimit p presType nom std
  let commonExp := f.commonExponent presType reals limit
  let (nomMain, errorMain, signifLimit) ← match commonExp, limit with
    | some e, some limit => do
      let factor ← f.mantissaFactor e
      pure (f.scale nom (1 / factor), f.scale std (1 / factor), some (limit - e))
    | _, _ => pure (nom, std, limit)
  let mainPresType := if presType = some 'E' ∨ presType = some 'F' ∨ presType = some 'G' then 'F' else 'f'
  let prec := match signifLimit with
    | some l => (max (-l) (if presType = none ∧ !std.truthy then 1 else 0)).toNat
    | none => prec
  pure { nomMain, errorMain, commonExp, prec, mainPresType, options }

/-- `AffineScalarFunc.__format__` (core.py 1865-2333) of a number with nominal value `nom` and standard deviation
`std`. -/
def formatU (nom std : FNum) (spec : Str) : PyRes Str :=
  match parseSpec spec with
  | none => throw .valueError
  | some p => do
    let plan ← f.formatPlan p nom std
    f.formatNum plan.nomMain plan.errorMain plan.commonExp p plan.prec plan.mainPresType plan.options

/-- Exact arithmetic. -/
def exact : FlOps where
  rnd := id
  logFloor := Int.log 10
  ten e := (10 : ℚ) ^ e

end FlOps

end Unc
