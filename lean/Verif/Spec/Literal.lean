import Verif.Spec.Text

/-!
# Numbers accepted by Python's `int()` and `float()`

The grammar of the Python documentation (section "Built-in Functions", `float()`), for ASCII digits.
-/

set_option autoImplicit false

namespace Unc

/-- Digits, with possible single underscores between two digits. -/
inductive DigitPart : Str → Prop
  | one (c : Char) (hc : isDigit c = true) : DigitPart [c]
  | cons (c : Char) (s : Str) (hc : isDigit c = true) (hs : DigitPart s) : DigitPart (c :: s)
  | under (c : Char) (s : Str) (hc : isDigit c = true) (hs : DigitPart s) : DigitPart (c :: '_' :: s)

/-- The digits of a text: underscores are ignored. -/
def digitsOf (s : Str) : Str := s.filter (· ≠ '_')

/-- An integer with its sign. -/
def signedInt (sg ds : Str) : ℤ := if sg = ['-'] then -(digitsVal (digitsOf ds) : ℤ) else (digitsVal (digitsOf ds) : ℤ)

/-- The texts accepted by `int()`, with their value. -/
inductive IntLiteral : Str → ℤ → Prop
  | mk (a sg ds b : Str) (ha : ∀ c ∈ a, isNumSpace c = true) (hb : ∀ c ∈ b, isNumSpace c = true) (hsg : IsSign sg)
      (hds : DigitPart ds) : IntLiteral (a ++ (sg ++ ds) ++ b) (signedInt sg ds)

/-- Optional exponent of a decimal number. -/
inductive ExponentLiteral : Str → ℤ → Prop
  | none : ExponentLiteral [] 0
  | some (c : Char) (sg ds : Str) (hc : c = 'e' ∨ c = 'E') (hsg : IsSign sg) (hds : DigitPart ds) :
      ExponentLiteral (c :: (sg ++ ds)) (signedInt sg ds)

/-- A decimal number without sign and exponent: its text, the digits before the decimal point, and the decimals. -/
inductive Mantissa : Str → Str → Str → Prop
  | int (ip : Str) (h : DigitPart ip) : Mantissa ip (digitsOf ip) []
  | dot (ip : Str) (h : DigitPart ip) : Mantissa (ip ++ ['.']) (digitsOf ip) []
  | dec (ip fp : Str) (h : DigitPart ip) (h' : DigitPart fp) : Mantissa (ip ++ '.' :: fp) (digitsOf ip) (digitsOf fp)
  | only (fp : Str) (h : DigitPart fp) : Mantissa ('.' :: fp) [] (digitsOf fp)

/-- What can follow the sign of a float (`neg`: is the sign a minus?). -/
inductive FloatBody (neg : Bool) : Str → FNum → Prop
  | nan (t : Str) (h : lower t = "nan".toList) : FloatBody neg t .nan
  | inf (t : Str) (h : lower t = "inf".toList ∨ lower t = "infinity".toList) : FloatBody neg t (.inf neg)
  | decimal (m ip fp e : Str) (n : ℤ) (hm : Mantissa m ip fp) (he : ExponentLiteral e n) :
      FloatBody neg (m ++ e)
        (.fin ((if neg then -1 else 1) * ((digitsVal (ip ++ fp) : ℚ) * (10 : ℚ) ^ (n - (fp.length : ℤ)))))

/-- The texts accepted by `float()`, with their value. -/
inductive FloatLiteral : Str → FNum → Prop
  | mk (a sg t b : Str) (x : FNum) (ha : ∀ c ∈ a, isNumSpace c = true) (hb : ∀ c ∈ b, isNumSpace c = true) (hsg : IsSign sg)
      (ht : FloatBody (decide (sg = ['-'])) t x) : FloatLiteral (a ++ (sg ++ t) ++ b) x

end Unc
