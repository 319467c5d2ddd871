import Verif.Model.PyFormat

/-!
# Formatting of numbers with uncertainties

`AffineScalarFunc.__format__` and `format_num` (core.py 950-1485, 1859-2337).
-/

set_option autoImplicit false

namespace Unc

/-! ### Superscripts -/

/-- `TO_SUPERSCRIPT` (core.py 972-987), for one character. -/
def toSup (c : Char) : Char :=
  match c with
  | '+' => '⁺' | '-' => '⁻' | '0' => '⁰' | '1' => '¹' | '2' => '²' | '3' => '³' | '4' => '⁴'
  | '5' => '⁵' | '6' => '⁶' | '7' => '⁷' | '8' => '⁸' | '9' => '⁹'
  | c => c

/-- `FROM_SUPERSCRIPT` (core.py 992-993), for one character. -/
def fromSup (c : Char) : Char :=
  match c with
  | '⁺' => '+' | '⁻' => '-' | '⁰' => '0' | '¹' => '1' | '²' => '2' | '³' => '3' | '⁴' => '4'
  | '⁵' => '5' | '⁶' => '6' | '⁷' => '7' | '⁸' => '8' | '⁹' => '9'
  | c => c

/-- `to_superscript` (core.py 995-1004). -/
def toSuperscript (value : ℤ) : Str := (intStr value).map toSup

/-- `nrmlze_superscript` (core.py 1006-1022); `none`: `ValueError`. -/
def nrmlzeSuperscript (s : Str) : Option ℤ := pyInt (s.map fromSup)

/-! ### Format specification -/

/-- The groups of the regular expression of `__format__` (core.py 1985-1998). -/
structure FmtParts where
  fill : Str
  align : Str
  sign : Str
  zero : Str
  width : Str
  comma : Str
  /-- `none`: no precision (the group did not take part in the match). -/
  prec : Option Str
  uncertPrec : Str
  type : Str
  options : Str
  deriving DecidableEq

/-- The regular expression of `__format__` (core.py 1985-1998). -/
def specRe : Re FmtParts :=
  Re.seq (Re.lazyOptC fun c => c ≠ '{' && c ≠ '}') fun fill =>
  Re.seq (Re.optC fun c => c ∈ "<>=^".toList) fun align =>
  Re.seq (Re.optC fun c => c ∈ "-+ ".toList) fun sign =>
  Re.seq (Re.optC fun c => c = '0') fun zero =>
  Re.seq (Re.star isDigit) fun width =>
  Re.seq (Re.optC fun c => c = ',') fun comma =>
  Re.seq (Re.opt (Re.seq (Re.lit ['.']) fun _ =>
    Re.seq (Re.one isDigit) fun d => Re.seq (Re.star isDigit) fun ds => Re.ret (d :: ds))) fun prec =>
  Re.seq (Re.optC fun c => c = 'u') fun uncertPrec =>
  Re.seq (Re.lazyOptC fun c => c ∈ "eEfFgG%".toList) fun type =>
  Re.seq (Re.star fun c => c ∈ "PSLp".toList) fun options =>
  Re.seq Re.eos fun _ =>
  Re.ret { fill, align, sign, zero, width, comma, prec, uncertPrec, type, options }

/-- `re.match(r'''...''', format_spec, re.VERBOSE)` (core.py 1985-1998). -/
def parseSpec (spec : Str) : Option FmtParts := Re.first specRe spec

/-! ### `format_num` -/

/-- `EXP_LETTERS` (core.py 952): the keys are `f` and `F`. -/
def expLetter (mainPresType : Char) : Char := if mainPresType = 'F' then 'E' else 'e'

/-- `print_type` (core.py 1120-1125). -/
inductive PrintType
  | pretty | latex | default
  deriving DecidableEq

/-- `print_type` (core.py 1120-1125): the option P has priority over L. -/
def printType (options : Str) : PrintType :=
  if 'P' ∈ options then .pretty else if 'L' ∈ options then .latex else .default

/-- `exp_str` (core.py 1128-1135, with `EXP_PRINT`, 1026-1028). -/
def expStr (commonExp : Option ℤ) (mainPresType : Char) (options : Str) : Str :=
  match commonExp with
  | none => []
  | some e =>
    match printType options with
    | .default => expLetter mainPresType :: expDigits e
    | .pretty => "×10".toList ++ toSuperscript e
    | .latex => " \\times 10^{".toList ++ intStr e ++ ['}']

/-- `percent_str` (core.py 1138-1146). -/
def percentStr (options : Str) : Str :=
  if '%' ∈ options then (if 'L' ∈ options then " \\".toList else []) ++ ['%'] else []

/-- `special_error` (core.py 1152). -/
def specialError (errorMain : FNum) : Bool := !errorMain.truthy || errorMain.isInfinite

/-- `fmt_parts['type'] in ('', 'g', 'G')` (core.py 1157, 1370). -/
def isGType (type : Str) : Bool := type = [] || type = ['g'] || type = ['G']

/-- `'.%d%s' % (prec, main_pres_type)` (core.py 1164, 1374). -/
def fixedSuffix (prec : ℕ) (mainPresType : Char) : Str := '.' :: (natStr prec ++ [mainPresType])

/-- `(fmt_parts['prec'] or '')+fmt_parts['type']` (core.py 1162, 1372). -/
def gSuffix (p : FmtParts) : Str := p.prec.getD [] ++ p.type

/-- `fmt_suffix_n` (core.py 1157-1164). -/
def fmtSuffixN (errorMain : FNum) (p : FmtParts) (prec : ℕ) (mainPresType : Char) : Str :=
  if specialError errorMain && isGType p.type then gSuffix p else fixedSuffix prec mainPresType

/-- `r'\mathrm{%s}' % s` -/
def mathrm (s : Str) : Str := "\\mathrm{".toList ++ s ++ ['}']

/-- `nom_val_str` overridden for LaTeX (core.py 1257-1266, 1382-1387). -/
def latexNom (options : Str) (x : FNum) (s : Str) : Str :=
  if 'L' ∈ options then
    match x with
    | .nan => mathrm s
    | .inf neg => (if neg then ['-'] else []) ++ "\\infty".toList
    | .fin _ => s
  else s

/-- `error_str` overridden for LaTeX (core.py 1382, 1389-1392). -/
def latexErr (options : Str) (x : FNum) (s : Str) : Str :=
  if 'L' ∈ options then
    match x with
    | .nan => mathrm s
    | .inf _ => "\\infty".toList
    | .fin _ => s
  else s

/-- `uncert_str` for a finite, non-zero error in the shorthand notation (core.py 1195-1220).  `10.**prec` can overflow. -/
def shorthandUncert (errorMain : ℚ) (prec : ℕ) : PyRes Str :=
  let uncert := pyRound errorMain prec
  if 0 ≤ firstDigit uncert ∧ 0 < prec then
    -- '%.*f' % (prec, uncert)
    let r := fixedParts (rhe (|uncert| * (10 : ℚ) ^ prec)).natAbs prec
    pure ((if uncert < 0 then ['-'] else []) ++ r.1 ++ r.2)
  else if uncert ≠ 0 then do
    let f ← pow10 prec
    pure (intStr (rhe (uncert * f)))
  else pure "0.".toList

/-- `uncert_str` (core.py 1181-1220). -/
def uncertStr (errorMain : FNum) (prec : ℕ) (mainPresType : Char) (options : Str) : PyRes Str :=
  match errorMain with
  | .fin q => if q = 0 then pure ['0'] else shorthandUncert q prec
  | .nan => do
    let s ← pyFormat .nan [mainPresType]
    pure (if 'L' ∈ options then mathrm s else s)
  | .inf neg =>
    if 'L' ∈ options then pure "\\infty".toList
    else pyFormat (.inf neg) [mainPresType]

/-- The effective alignment: `fmt_parts['align'] or '>'` (core.py 1278, 1407). -/
def effectiveAlign (p : FmtParts) : Char := p.align.headD '>'

/-- The shorthand notation (core.py 1177-1279). -/
def formatShorthand (nomMain errorMain : FNum) (commonExp : Option ℤ) (p : FmtParts) (prec : ℕ)
    (mainPresType : Char) (options : Str) : PyRes Str := do
  let uncert ← uncertStr errorMain prec mainPresType options
  let valueEnd := '(' :: uncert ++ ')' :: expStr commonExp mainPresType options ++ percentStr options
  let fmtPrefixN :=
    if p.zero ≠ [] ∧ p.width ≠ [] then
      p.sign ++ p.zero ++ natStr (digitsVal p.width - valueEnd.length) ++ p.comma
    else p.sign ++ p.comma
  let nomStr ← pyFormat nomMain (fmtPrefixN ++ fmtSuffixN errorMain p prec mainPresType)
  let nomStr := latexNom options nomMain nomStr
  let valueStr := nomStr ++ valueEnd
  if p.width ≠ [] then robustAlign valueStr p.fill (effectiveAlign p) p.width
  else pure valueStr

/-- `LEFT_GROUPING, RIGHT_GROUPING` (core.py 1031-1040, 1435). -/
def grouping (options : Str) : Str × Str :=
  match printType options with
  | .latex => ("\\left(".toList, "\\right)".toList)
  | _ => (['('], [')'])

/-- `pm_symbol` (core.py 1421-1428). -/
def pmSymbol (options : Str) : Str :=
  if 'P' ∈ options then ['±'] else if 'L' ∈ options then " \\pm ".toList else "+/-".toList

/-- `fmt_suffix_e` (core.py 1365-1376). -/
def fmtSuffixE (nomMain errorMain : FNum) (p : FmtParts) (prec : ℕ) (mainPresType : Char) : Str :=
  if errorMain.truthy then
    if nomMain.isInfinite && isGType p.type then gSuffix p else fixedSuffix prec mainPresType
  else ".0".toList ++ [mainPresType]

/-- The ± notation (core.py 1281-1454). -/
def formatPm (nomMain errorMain : FNum) (commonExp : Option ℤ) (p : FmtParts) (prec : ℕ)
    (mainPresType : Char) (options : Str) : PyRes Str := do
  let exp := expStr commonExp mainPresType options
  let percent := percentStr options
  let anyExpFactored : Bool := p.width = []
  let errorHasExp := !anyExpFactored && !specialError errorMain
  let nomHasExp := !anyExpFactored && !nomMain.isInfinite
  let prefixes : Str × Str :=
    if p.width ≠ [] ∧ p.zero ≠ [] then
      let width := digitsVal p.width
      let remaining := width - exp.length
      (p.sign ++ p.zero ++ natStr (if nomHasExp then remaining else width) ++ p.comma,
       p.zero ++ natStr (if errorHasExp then remaining else width) ++ p.comma)
    else (p.sign ++ p.comma, p.comma)
  let nomStr ← pyFormat nomMain (prefixes.1 ++ fmtSuffixN errorMain p prec mainPresType)
  let errorStr ← pyFormat errorMain (prefixes.2 ++ fmtSuffixE nomMain errorMain p prec mainPresType)
  let nomStr := latexNom options nomMain nomStr
  let errorStr := latexErr options errorMain errorStr
  let nomStr := if nomHasExp then nomStr ++ exp else nomStr
  let errorStr := if errorHasExp then errorStr ++ exp else errorStr
  let nomStr ← if p.width ≠ [] then robustAlign nomStr p.fill (effectiveAlign p) p.width else pure nomStr
  let errorStr ← if p.width ≠ [] then robustAlign errorStr p.fill (effectiveAlign p) p.width else pure errorStr
  let (left, right) := grouping options
  let both := nomStr ++ pmSymbol options ++ errorStr
  if anyExpFactored && commonExp.isSome then
    pure (left ++ both ++ right ++ exp ++ percent)
  else if percent ≠ [] then
    pure (left ++ both ++ right ++ percent)
  else if 'p' ∈ options then
    pure (left ++ both ++ right)
  else pure both

/-- `format_num` (core.py 1042-1456). -/
def formatNum (nomMain errorMain : FNum) (commonExp : Option ℤ) (p : FmtParts) (prec : ℕ)
    (mainPresType : Char) (options : Str) : PyRes Str :=
  if 'S' ∈ options then formatShorthand nomMain errorMain commonExp p prec mainPresType options
  else formatPm nomMain errorMain commonExp p prec mainPresType options

/-! ### `__format__` -/

/-- What `__format__` gives to `format_num` (core.py 2329-2333). -/
structure Plan where
  nomMain : FNum
  errorMain : FNum
  commonExp : Option ℤ
  prec : ℕ
  mainPresType : Char
  options : Str

/-- `real_values` (core.py 2057-2058). -/
def realValues (nom std : FNum) : List ℚ :=
  (match nom with | .fin q => [|q|] | _ => []) ++ (match std with | .fin q => [q] | _ => [])

/-- `exp_ref_value = max(real_values)` (core.py 2071-2075); `none`: there is no real value. -/
def expRefValue : List ℚ → Option ℚ
  | [] => none
  | [a] => some a
  | a :: b :: _ => some (max a b)

/-- `digits_limit`, and the standard deviation to be displayed (core.py 2082-2189).  The type is `f` for `%`. -/
def digitsLimit (p : FmtParts) (presType : Option Char) (nom std : FNum) : PyRes (Option ℤ × FNum × ℕ) :=
  let reals := realValues nom std
  let fmtPrec := p.prec.getD []
  let uncertControl : Bool := (fmtPrec = [] ∧ reals.length = 2) ∨ p.uncertPrec ≠ []
  match uncertControl, std with
  | true, .fin s =>
    if s ≠ 0 then
      if fmtPrec ≠ [] then
        if digitsVal fmtPrec = 0 then throw .valueError
        else pure (some (signifDgtToLimit s (digitsVal fmtPrec)), std, 0)
      else
        let r := pdgPrecision s
        pure (some (signifDgtToLimit r.2 r.1), .fin r.2, 0)
    else floatLimit fmtPrec reals
  | _, _ => floatLimit fmtPrec reals
where
  /-- No control of the number of significant digits of the uncertainty (core.py 2119-2189). -/
  floatLimit (fmtPrec : Str) (reals : List ℚ) : PyRes (Option ℤ × FNum × ℕ) :=
    let prec : ℕ := if fmtPrec ≠ [] then digitsVal fmtPrec else if presType = none then 12 else 6
    if presType = some 'f' ∨ presType = some 'F' then pure (some (-prec), std, prec)
    else
      let numSignif : ℕ :=
        if presType = some 'e' ∨ presType = some 'E' then prec + 1 else if prec = 0 then 1 else prec
      match expRefValue reals with
      | some v => pure (some (signifDgtToLimit v numSignif), std, prec)
      | none => pure (none, std, prec)

/-- `use_exp` and `common_exp` (core.py 2200-2250): the common exponent, if one is used. -/
def commonExponent (presType : Option Char) (reals : List ℚ) (limit : Option ℤ) : Option ℤ :=
  if presType = some 'f' ∨ presType = some 'F' then none
  else match expRefValue reals, limit with
    | some v, some limit =>
      let e := firstDigit (pyRound v (-limit))
      if presType = some 'e' ∨ presType = some 'E' then some e
      else if -4 ≤ e ∧ e < e - limit + 1 then none else some e
    | _, _ => none

/-- `factor`, by which the values are divided when there is a common exponent (core.py 2265-2269): `10.**common_exp` is
zero for exponents below -323, and the division then raises. -/
def mantissaFactor (e : ℤ) : PyRes ℚ := if e < -323 then throw .zeroDivisionError else pow10 e

/-- The calculations of `__format__` (core.py 2016-2313), for a specification that has been read. -/
def formatPlan (p : FmtParts) (nom std : FNum) : PyRes Plan := do
  let isPercent := p.type = ['%']
  let presType : Option Char := if isPercent then some 'f' else p.type.head?
  let nom := if isPercent then nom.scale 100 else nom
  let std := if isPercent then std.scale 100 else std
  let options := if isPercent then '%' :: p.options else p.options
  let reals := realValues nom std
  let (limit, std, prec) ← digitsLimit p presType nom std
  let commonExp := commonExponent presType reals limit
  let (nomMain, errorMain, signifLimit) ← match commonExp, limit with
    | some e, some limit => do
      let factor ← mantissaFactor e
      pure (nom.scale (1 / factor), std.scale (1 / factor), some (limit - e))
    | _, _ => pure (nom, std, limit)
  let mainPresType := if presType = some 'E' ∨ presType = some 'F' ∨ presType = some 'G' then 'F' else 'f'
  let prec := match signifLimit with
    | some l => (max (-l) (if presType = none ∧ !std.truthy then 1 else 0)).toNat
    | none => prec
  pure { nomMain, errorMain, commonExp, prec, mainPresType, options }

/-- `AffineScalarFunc.__format__` (core.py 1865-2333) of a number with nominal value `nom` and standard deviation
`std`. -/
def formatU (nom std : FNum) (spec : Str) : PyRes Str :=
  match parseSpec spec with
  | none => throw .valueError
  | some p => do
    let plan ← formatPlan p nom std
    formatNum plan.nomMain plan.errorMain plan.commonExp p plan.prec plan.mainPresType plan.options

end Unc
