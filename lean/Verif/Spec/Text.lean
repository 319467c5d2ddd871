import Verif.Model.Format

/-!
# Vocabulary for numbers written as text
-/

set_option autoImplicit false

namespace Unc

/-- A sign: nothing, `+` or `-`. -/
def IsSign (sg : Str) : Prop := sg = [] ∨ sg = ['+'] ∨ sg = ['-']

instance (s : Str) : Decidable (IsSign s) := by unfold IsSign; infer_instance

/-- A string made of digits. -/
def IsDigits (s : Str) : Prop := ∀ c ∈ s, isDigit c = true

instance (s : Str) : Decidable (IsDigits s) := by unfold IsDigits; infer_instance

/-- A string made of space characters. -/
def IsSpaces (s : Str) : Prop := ∀ c ∈ s, isSpace c = true

instance (s : Str) : Decidable (IsSpaces s) := by unfold IsSpaces; infer_instance

/-- An unsigned decimal number: integer part and optional decimal part (that follows a decimal point), with at least
one digit. -/
structure Decimal where
  ip : Str
  fp : Option Str
  ipDigits : IsDigits ip
  fpDigits : IsDigits (fp.getD [])
  some_digit : ip ++ fp.getD [] ≠ []

/-- The text of a decimal number: `12`, `12.`, `12.3`, `.3` -/
def Decimal.text (d : Decimal) : Str :=
  d.ip ++ match d.fp with
    | none => []
    | some fp => '.' :: fp

/-- The number of digits after the decimal point. -/
def Decimal.places (d : Decimal) : ℕ := (d.fp.getD []).length

/-- The value of a decimal number. -/
def Decimal.value (d : Decimal) : ℚ := (digitsVal (d.ip ++ d.fp.getD []) : ℚ) / (10 : ℚ) ^ d.places

/-- The value of a sign. -/
def signVal (sg : Str) : ℚ := if sg = ['-'] then -1 else 1

/-- `t` is the integer `n`, written with ordinary digits or with superscripts. -/
def IntText (t : Str) (n : ℤ) : Prop :=
  ∃ sg ds, IsSign sg ∧ IsDigits ds ∧ ds ≠ [] ∧ (t = sg ++ ds ∨ t = (sg ++ ds).map toSup) ∧
    n = if sg = ['-'] then -(digitsVal ds : ℤ) else (digitsVal ds : ℤ)

/-- `t` is an exponent: nothing, or `e`, `E` or `×10` (possibly with spaces around `×`) followed by the exponent. -/
inductive ExpPart : Str → ℤ → Prop
  | none : ExpPart [] 0
  | e (t : Str) (n : ℤ) (h : IntText t n) : ExpPart ('e' :: t) n
  | E (t : Str) (n : ℤ) (h : IntText t n) : ExpPart ('E' :: t) n
  | times (a b t : Str) (n : ℤ) (ha : IsSpaces a) (hb : IsSpaces b) (h : IntText t n) :
      ExpPart (a ++ '×' :: (b ++ '1' :: '0' :: t)) n

/-- The uncertainty of the shorthand notation: not given, an integer number of units of the last digit, an explicit
decimal number, infinity or NaN. -/
inductive ShortUncert
  | implicit
  | units (ds : Str) (h : IsDigits ds) (hne : ds ≠ [])
  | explicit (d : Decimal) (h : d.fp.isSome)
  | nan (upper : Bool)
  | inf (upper : Bool)

/-- The text of the uncertainty, with its parentheses. -/
def ShortUncert.text : ShortUncert → Str
  | .implicit => []
  | .units ds _ _ => '(' :: (ds ++ [')'])
  | .explicit d _ => '(' :: (d.text ++ [')'])
  | .nan upper => if upper then "(NAN)".toList else "(nan)".toList
  | .inf upper => if upper then "(INF)".toList else "(inf)".toList

/-- The uncertainty is given as a number of units of the last digit of the nominal value. -/
def ShortUncert.InUnits : ShortUncert → Prop
  | .implicit => True
  | .units _ _ _ => True
  | _ => False

/-- The value of the uncertainty, when the last digit of the nominal value is worth `unit`. -/
def ShortUncert.value (unit : ℚ) : ShortUncert → FNum
  | .implicit => .fin unit
  | .units ds _ _ => .fin (digitsVal ds * unit)
  | .explicit d _ => .fin d.value
  | .nan _ => .nan
  | .inf _ => .inf false

/-- A string made of blanks. -/
def IsBlanks (s : Str) : Prop := ∀ c ∈ s, c = ' ' ∨ c = '\t'

instance (s : Str) : Decidable (IsBlanks s) := by unfold IsBlanks; infer_instance

/-- `t` is the integer `n`, written with ordinary digits. -/
def PlainInt (t : Str) (n : ℤ) : Prop :=
  ∃ sg ds, IsSign sg ∧ IsDigits ds ∧ ds ≠ [] ∧ t = sg ++ ds ∧
    n = if sg = ['-'] then -(digitsVal ds : ℤ) else (digitsVal ds : ℤ)

/-- `t` is the number `x`: a decimal number, possibly followed by an exponent (`e3`, `E+03`, `×10³`, `× 10+3`), or
`nan`, or `inf`, with blanks around. -/
inductive FloatText : Str → FNum → Prop
  | plain (a sg b : Str) (d : Decimal) (ha : IsBlanks a) (hb : IsBlanks b) (hsg : IsSign sg) :
      FloatText (a ++ (sg ++ d.text) ++ b) (.fin (signVal sg * d.value))
  | exp (a sg b : Str) (d : Decimal) (ha : IsBlanks a) (hb : IsBlanks b) (hsg : IsSign sg) (c : Char)
      (hc : c = 'e' ∨ c = 'E') (t : Str) (n : ℤ) (ht : PlainInt t n) :
      FloatText (a ++ (sg ++ (d.text ++ c :: t)) ++ b) (.fin (signVal sg * d.value * 10 ^ n))
  | times (a sg b : Str) (d : Decimal) (ha : IsBlanks a) (hb : IsBlanks b) (hsg : IsSign sg) (u v t : Str)
      (hu : IsBlanks u) (hv : IsBlanks v) (n : ℤ) (ht : IntText t n) (hn : n ≤ 308) :
      FloatText (a ++ (sg ++ d.text) ++ u ++ '×' :: (v ++ '1' :: '0' :: (t ++ b))) (.fin (signVal sg * d.value * 10 ^ n))
  | nan (a sg b t : Str) (ha : IsBlanks a) (hb : IsBlanks b) (hsg : IsSign sg)
      (ht : t = "nan".toList ∨ t = "NAN".toList ∨ t = "NaN".toList) : FloatText (a ++ (sg ++ t) ++ b) .nan
  | inf (a sg b t : Str) (ha : IsBlanks a) (hb : IsBlanks b) (hsg : IsSign sg)
      (ht : t = "inf".toList ∨ t = "INF".toList ∨ t = "Inf".toList) :
      FloatText (a ++ (sg ++ t) ++ b) (.inf (decide (sg = ['-'])))

/-- A plus-minus symbol, ASCII or Unicode. -/
def IsPm (s : Str) : Prop := s = "+/-".toList ∨ s = ['±']

end Unc
