import Verif.Model.Format

/-!
# Parsing of numbers with uncertainties

`ufloat_fromstr` and its helpers (core.py 2947-3227), and `__repr__` (core.py 1840-1857).

The parser is generic in the type of floats and in Python's `float()`: it only needs the operations of `PyText`.
-/

set_option autoImplicit false

namespace Unc

/-- What the parser needs from floats. -/
class PyText (F : Type) where
  /-- `float(s)`; `none`: `ValueError` -/
  ofStr : Str → Option F
  /-- `10.**n` -/
  pow10 : ℤ → PyRes F
  /-- `x*y` -/
  mul : F → F → F
  /-- the factor `1` -/
  one : F
  /-- `n/x` for an integer `n` and a float -/
  divInt : ℤ → F → PyRes F
  /-- `std_dev < 0 and not isinfinite(std_dev)` (core.py 2786) -/
  isNegFinite : F → Bool

/-- Exact floats.  (`mul`: one of the factors is always a power of ten; a product of two infinities does not
happen.) -/
instance : PyText FNum where
  ofStr := pyFloat
  pow10 n := (Unc.pow10 n).map .fin
  mul x y := match y with
    | .fin f => x.scale f
    | y => y
  one := .fin 1
  divInt n x := match x with
    | .fin q => if q = 0 then throw .zeroDivisionError else pure (.fin (n / q))
    | _ => pure .nan
  isNegFinite x := x.isNeg && !x.isInfinite

/-! ### Regular expressions -/

/-- A match of `POSITIVE_DECIMAL_UNSIGNED_OR_NON_FINITE` (core.py 2956): the whole text, and its two subgroups. -/
structure NumMatch where
  text : Str
  int : Option Str
  dec : Option Str
  deriving DecidableEq

/-- `(\d*)(\.\d*)?` -/
def decimalRe : Re NumMatch :=
  Re.seq (Re.star isDigit) fun i =>
  Re.seq (Re.opt (Re.seq (Re.lit ['.']) fun _ => Re.seq (Re.star isDigit) fun d => Re.ret ('.' :: d))) fun d =>
  Re.ret { text := i ++ d.getD [], int := some i, dec := d }

/-- A literal alternative of `POSITIVE_DECIMAL_UNSIGNED_OR_NON_FINITE`. -/
def nameRe (name : String) : Re NumMatch :=
  Re.seq (Re.lit name.toList) fun _ => Re.ret { text := name.toList, int := none, dec := none }

/-- `POSITIVE_DECIMAL_UNSIGNED_OR_NON_FINITE` (core.py 2956). -/
def numberRe : Re NumMatch :=
  Re.alt decimalRe (Re.alt (nameRe "nan") (Re.alt (nameRe "NAN") (Re.alt (nameRe "inf") (nameRe "INF"))))

/-- `(?:[eE]|\s*×\s*10)` (core.py 2969, 2985). -/
def timesRe : Re Unit :=
  Re.alt (Re.seq (Re.one fun c => c = 'e' || c = 'E') fun _ => Re.ret ())
    (Re.seq (Re.star isSpace) fun _ => Re.seq (Re.lit ['×']) fun _ =>
      Re.seq (Re.star isSpace) fun _ => Re.lit ['1', '0'])

/-- The groups of `NUMBER_WITH_UNCERT_RE_STR` (core.py 2964-2973). -/
structure ParenMatch where
  sign : Option Char
  main : NumMatch
  uncert : Option NumMatch
  exponent : Option Str
  deriving DecidableEq

/-- `NUMBER_WITH_UNCERT_RE_MATCH` (core.py 2964-2976). -/
def parenRe : Re ParenMatch :=
  Re.seq (Re.opt (Re.one fun c => c = '+' || c = '-')) fun sign =>
  Re.seq numberRe fun main =>
  Re.seq (Re.opt (Re.seq (Re.lit ['(']) fun _ =>
    Re.seq numberRe fun u => Re.seq (Re.lit [')']) fun _ => Re.ret u)) fun uncert =>
  Re.seq (Re.opt (Re.seq timesRe fun _ => Re.star Re.dot)) fun exponent =>
  Re.seq Re.eos fun _ =>
  Re.ret { sign, main, uncert, exponent }

/-- `NUMBER_WITH_UNCERT_GLOBAL_EXP_RE_MATCH` (core.py 2981-2986): what is between the parentheses, and the
exponent. -/
def globalExpRe : Re (Str × Str) :=
  Re.seq (Re.lit ['(']) fun _ =>
  Re.seq (Re.star Re.dot) fun simple =>
  Re.seq (Re.lit [')']) fun _ =>
  Re.seq timesRe fun _ =>
  Re.seq (Re.star Re.dot) fun e =>
  Re.seq Re.eos fun _ =>
  Re.ret (simple, e)

/-- `PRETTY_PRINT_MATCH` (core.py 3059). -/
def prettyRe : Re (Str × Str) :=
  Re.seq (Re.lazyStar Re.dot) fun m =>
  Re.seq (Re.star isSpace) fun _ =>
  Re.seq (Re.lit ['×']) fun _ =>
  Re.seq (Re.star isSpace) fun _ =>
  Re.seq (Re.lit ['1', '0']) fun _ =>
  Re.seq (Re.star Re.dot) fun e =>
  Re.ret (m, e)

/-- The regular expression splitting at the last plus-minus symbol, ASCII or Unicode (core.py 3143). -/
def pmRe : Re (Str × Str) :=
  Re.seq (Re.star Re.dot) fun n =>
  Re.seq (Re.alt (Re.lit "+/-".toList) (Re.lit ['±'])) fun _ =>
  Re.seq (Re.star Re.dot) fun u =>
  Re.ret (n, u)

/-! ### Functions -/

section
variable {F : Type} [PyText F]

/-- `ValueError` when there is no value. -/
def orValueError {α : Type} (o : Option α) : PyRes α :=
  match o with
  | some a => .ok a
  | none => .error .valueError

/-- The factor given by an exponent (core.py 3024-3028): none, or an empty one, is a factor 1. -/
def expFactor (e : Option Str) : PyRes F :=
  match e with
  | none => pure PyText.one
  | some [] => pure PyText.one
  | some e => do
    let n ← orValueError (nrmlzeSuperscript e)
    PyText.pow10 n

/-- The uncertainty given in the parentheses (core.py 3033-3051), for a nominal value with decimal part `dec`. -/
def uncertOf (mu : Option NumMatch) (dec : Option Str) : PyRes F :=
  let explicit : Option Str :=
    match mu with
    | none => none
    | some u =>
      if u.dec.isSome ∨ u.text ∈ ["nan".toList, "NAN".toList, "inf".toList, "INF".toList] then some u.text
      else none
  match explicit with
    | some t => orValueError (PyText.ofStr t)
    | none => do
      let uncertInt := match mu with
        | none => ['1']
        | some u => u.int.getD []
      let numDigits : ℕ := match dec with
        | none => 0
        | some d => d.length - 1
      let n ← orValueError (pyInt uncertInt)
      let d : F ← PyText.pow10 numDigits
      PyText.divInt n d

/-- `parse_error_in_parentheses` (core.py 2995-3056).  `NotParenUncert` is a `ValueError` (core.py 2988), and is
turned into a `ValueError` by the only caller (core.py 3160-3161). -/
def parseErrorInParentheses (s : Str) : PyRes (F × F) := do
  let m ← orValueError (Re.first parenRe s)
  let factor : F ← expFactor m.exponent
  let v ← orValueError (PyText.ofStr (m.sign.toList ++ m.main.text))
  let uncert : F ← uncertOf m.uncert m.main.dec
  pure (PyText.mul v factor, PyText.mul uncert factor)

/-- `to_float` (core.py 3061-3089). -/
def toFloat (s : Str) : PyRes F :=
  match PyText.ofStr s with
  | some x => .ok x
  | none =>
    match Re.first prettyRe s with
    | some (m, e) => do
      let x : F ← orValueError (PyText.ofStr m)
      let n ← orValueError (nrmlzeSuperscript e)
      let f ← PyText.pow10 n
      pure (PyText.mul x f)
    | none => .error .valueError

/-- `str_to_number_with_uncert` (core.py 3099-3163). -/
def strToNumberWithUncert (s : Str) : PyRes (F × F) := do
  let s := if s.head? = some '(' ∧ s.getLast? = some ')' then s.tail.dropLast else s
  let (factor, s) ← (match Re.first globalExpRe s with
    | some (simple, e) => do
      let n ← orValueError (nrmlzeSuperscript e)
      let f : F ← PyText.pow10 n
      pure (f, simple)
    | none => pure (PyText.one, s) : PyRes (F × Str))
  match Re.first pmRe s with
  | some (n, u) => do
    let x : F ← toFloat n
    let y : F ← toFloat u
    pure (PyText.mul x factor, PyText.mul y factor)
  | none => parseErrorInParentheses s

/-- `ufloat_fromstr` (core.py 3165-3227): the nominal value and standard deviation of the variable created.
`Variable` refuses a negative standard deviation (core.py 2786-2787). -/
def ufloatFromstr (s : Str) : PyRes (F × F) := do
  let (n, u) ← strToNumberWithUncert (strip s)
  if PyText.isNegFinite u then throw .negativeStdDev else pure (n, u)

/-- `__repr__` (core.py 1840-1857), for any function giving the representation of floats, and any truth value. -/
def reprU (repr : F → Str) (truthy : F → Bool) (nom std : F) : Str :=
  repr nom ++ "+/-".toList ++ (if truthy std then repr std else ['0'])

end

/-- `repr(x)` of a float. -/
def reprFloat (x : FNum) : Str := formatWith x {}

end Unc
