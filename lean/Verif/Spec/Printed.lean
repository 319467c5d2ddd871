import Verif.Spec.Text
import Verif.Spec.Decimal

/-!
# Vocabulary for the strings produced by the formatting of numbers with uncertainties

How a reader reads the printed strings.  Nothing here refers to the way in which they are produced.
-/

set_option autoImplicit false

namespace Unc

/-- `t` is the number `q` printed with `p` digits after the decimal point (no point if `p = 0`): possible sign or space,
integer part (possibly with zeros on the left and thousands separators), decimal part. -/
def Fixed (t : Str) (p : ℕ) (q : ℚ) : Prop :=
  ∃ sg ip ds : Str, t = sg ++ ip ++ (if p = 0 then [] else '.' :: ds) ∧
    (sg = [] ∨ sg = ['+'] ∨ sg = ['-'] ∨ sg = [' ']) ∧
    (∀ c ∈ ip, isDigit c = true ∨ c = ',') ∧ (∃ c ∈ ip, isDigit c = true) ∧
    IsDigits ds ∧ ds.length = p ∧
    q = signVal sg * (digitsVal (ip.filter isDigit ++ ds) / 10 ^ p)

/-- `t` is the exponent `n`: `e+03`, `E+03`, `×10³` or ` \times 10^{3}`. -/
inductive ExpShown : Str → ℤ → Prop
  | e (t : Str) (n : ℤ) (h : PlainInt t n) : ExpShown ('e' :: t) n
  | E (t : Str) (n : ℤ) (h : PlainInt t n) : ExpShown ('E' :: t) n
  | pretty (t : Str) (n : ℤ) (h : PlainInt t n) : ExpShown ("×10".toList ++ t.map toSup) n
  | latex (t : Str) (n : ℤ) (h : PlainInt t n) : ExpShown (" \\times 10^{".toList ++ t ++ ['}']) n

/-- A number as it is read on the printed string: number of digits after the decimal point, number without its
exponent, and exponent, if any. -/
structure Shown where
  places : ℕ
  mantissa : ℚ
  exp : Option ℤ

/-- The value of a printed number. -/
def Shown.value (n : Shown) : ℚ := n.mantissa * (10 : ℚ) ^ n.exp.getD 0

/-- The value of one unit of the last printed digit. -/
def Shown.unit (n : Shown) : ℚ := (10 : ℚ) ^ (n.exp.getD 0 - n.places)

/-- `t` is an exponent, or nothing if there is no exponent. -/
def OptExp (t : Str) : Option ℤ → Prop
  | none => t = []
  | some n => ExpShown t n

/-- `t` is the number `n` (with its exponent) in a field, with fill characters on both sides. -/
def Field (t : Str) (n : Shown) : Prop :=
  ∃ m x : Str, ∃ c i j, t = List.replicate i c ++ (m ++ x) ++ List.replicate j c ∧ Fixed m n.places n.mantissa ∧
    OptExp x n.exp

/-- The symbol between the nominal value and the uncertainty. -/
def PmSym (s : Str) : Prop := s = "+/-".toList ∨ s = ['±'] ∨ s = " \\pm ".toList

/-- Parentheses. -/
def Group (l r : Str) : Prop := l = ['('] ∧ r = [')'] ∨ l = "\\left(".toList ∧ r = "\\right)".toList

/-- The percent sign. -/
def PercentSign (s : Str) : Prop := s = ['%'] ∨ s = " \\%".toList

/-- The uncertainty `u` between the parentheses of the shorthand notation, after a nominal value with `p` digits after
the decimal point: integer in units of the last digit of the nominal value (hence with the same number of digits after
the decimal point as the nominal value), explicit decimal number, or `0.` for an uncertainty that is rounded to zero. -/
inductive Bracket : ℕ → Str → Shown → Prop
  | units (p : ℕ) (ds : Str) (x : Option ℤ) (h : IsDigits ds) (hne : ds ≠ []) :
      Bracket p ds { places := p, mantissa := digitsVal ds / 10 ^ p, exp := x }
  | explicit (p : ℕ) (t : Str) (p' : ℕ) (q : ℚ) (x : Option ℤ) (hp : 0 < p') (h : Fixed t p' q) :
      Bracket p t { places := p', mantissa := q, exp := x }
  | zero (p : ℕ) (x : Option ℤ) : Bracket p "0.".toList { places := 0, mantissa := 0, exp := x }

/-- The string shows the nominal value `n` and the uncertainty `u`, as percentages if the last argument is true. -/
inductive Displays : Str → Shown → Shown → Bool → Prop
  /-- `12.3±0.4`, `12.3e+05±0.4e+05` -/
  | plain (A pm B : Str) (n u : Shown) (hA : Field A n) (hpm : PmSym pm) (hB : Field B u) :
      Displays (A ++ pm ++ B) n u false
  /-- `(12.3±0.4)`, `(12.3e+05±0.4e+05)` -/
  | grouped (l A pm B r : Str) (n u : Shown) (hg : Group l r) (hA : Field A n) (hpm : PmSym pm) (hB : Field B u) :
      Displays (l ++ (A ++ pm ++ B) ++ r) n u false
  /-- `(12.3±0.4)%` -/
  | percent (l A pm B r s : Str) (n u : Shown) (hg : Group l r) (hA : Field A n) (hpm : PmSym pm) (hB : Field B u)
      (hs : PercentSign s) : Displays (l ++ (A ++ pm ++ B) ++ r ++ s) n u true
  /-- `(12.3±0.4)e+05` -/
  | factored (l N pm U r x : Str) (p p' : ℕ) (qn qu : ℚ) (e : ℤ) (hg : Group l r) (hN : Fixed N p qn) (hpm : PmSym pm)
      (hU : Fixed U p' qu) (hx : ExpShown x e) :
      Displays (l ++ (N ++ pm ++ U) ++ r ++ x) ⟨p, qn, some e⟩ ⟨p', qu, some e⟩ false
  /-- `12.3(4)`, `12.3(4)e+05` -/
  | shorthand (N U x : Str) (n u : Shown) (c : Char) (i j : ℕ) (hN : Fixed N n.places n.mantissa)
      (hU : Bracket n.places U u) (hx : OptExp x n.exp) (he : u.exp = n.exp) :
      Displays (List.replicate i c ++ (N ++ '(' :: (U ++ ')' :: x)) ++ List.replicate j c) n u false
  /-- `12.3(4)%` -/
  | shorthandPercent (N U x s : Str) (n u : Shown) (c : Char) (i j : ℕ) (hN : Fixed N n.places n.mantissa)
      (hU : Bracket n.places U u) (hx : OptExp x n.exp) (he : u.exp = n.exp) (hs : PercentSign s) :
      Displays (List.replicate i c ++ (N ++ '(' :: (U ++ ')' :: x) ++ s) ++ List.replicate j c) n u true

/-- What the number printed as a percentage must be multiplied by. -/
def percentFactor (percent : Bool) : ℚ := if percent then 100 else 1

/-- `s'` is the uncertainty `s`, or its value rounded up to a power of ten, as the rules of the Particle Data Group
require when its three leading digits are 950 or more. -/
def SameOrPdg (s s' : ℚ) : Prop := s' = s ∨ ∃ t d, LeadingDigits s t d ∧ 950 ≤ t ∧ s' = (10 : ℚ) ^ (d + 1)

/-- `n` is within half a unit of its last printed digit of the value `v`. -/
def Shown.Near (n : Shown) (v : ℚ) : Prop := |v - n.value| ≤ n.unit / 2

/-- The string shows a nominal value `n` and an uncertainty `u` (as percentages if `percent` is true) that are `x` and
`s` rounded at the last printed digit. -/
structure Faithful (x s : ℚ) (out : Str) (n u : Shown) (percent : Bool) : Prop where
  displays : Displays out n u percent
  nominal : n.Near (x * percentFactor percent)
  uncertainty : ∃ s', SameOrPdg (s * percentFactor percent) s' ∧ u.Near s'

/-! ### One of the two numbers, when the other one is not a finite, non-zero number -/

/-- The nominal value of the string is written as the text `N`, with the exponent `x` (possibly empty). -/
inductive NominalText : Str → Str → Str → Prop
  /-- `12.3e+05±nan` -/
  | plain (N x pm B : Str) (c : Char) (i j : ℕ) (hpm : PmSym pm) :
      NominalText (List.replicate i c ++ (N ++ x) ++ List.replicate j c ++ pm ++ B) N x
  /-- `(12.3±nan)`, `(12.3±nan)%` -/
  | grouped (l N x pm B r s : Str) (c : Char) (i j : ℕ) (hg : Group l r) (hpm : PmSym pm) (hs : s = [] ∨ PercentSign s) :
      NominalText (l ++ (List.replicate i c ++ (N ++ x) ++ List.replicate j c ++ pm ++ B) ++ r ++ s) N x
  /-- `(12.3±nan)e+05` -/
  | factored (l N x pm B r : Str) (hg : Group l r) (hpm : PmSym pm) : NominalText (l ++ (N ++ pm ++ B) ++ r ++ x) N x
  /-- `12.3(nan)e+05`, `12.3(nan)%` -/
  | shorthand (N U x s : Str) (c : Char) (i j : ℕ) (hs : s = [] ∨ PercentSign s) :
      NominalText (List.replicate i c ++ (N ++ '(' :: (U ++ ')' :: (x ++ s))) ++ List.replicate j c) N x

/-- The uncertainty of the string is written as the text `U`, with the exponent `x` (possibly empty). -/
inductive UncertaintyText : Str → Str → Str → Prop
  /-- `nan±12.3e+05` -/
  | plain (A pm U x : Str) (c : Char) (i j : ℕ) (hpm : PmSym pm) :
      UncertaintyText (A ++ pm ++ (List.replicate i c ++ (U ++ x) ++ List.replicate j c)) U x
  /-- `(nan±12.3)`, `(nan±12.3)%` -/
  | grouped (l A pm U x r s : Str) (c : Char) (i j : ℕ) (hg : Group l r) (hpm : PmSym pm) (hs : s = [] ∨ PercentSign s) :
      UncertaintyText (l ++ (A ++ pm ++ (List.replicate i c ++ (U ++ x) ++ List.replicate j c)) ++ r ++ s) U x
  /-- `(nan±12.3)e+05` -/
  | factored (l A pm U x r : Str) (hg : Group l r) (hpm : PmSym pm) : UncertaintyText (l ++ (A ++ pm ++ U) ++ r ++ x) U x
  /-- `nan(12.3)e+05`, `nan(12.3)%` -/
  | shorthand (N U x s : Str) (c : Char) (i j : ℕ) (hs : s = [] ∨ PercentSign s) :
      UncertaintyText (List.replicate i c ++ (N ++ '(' :: (U ++ ')' :: (x ++ s))) ++ List.replicate j c) U x

/-- The uncertainty of the string is written as the text `Z`, without exponent attached to it: a possible exponent is
after the closing parenthesis (and is thus common to the nominal value and the uncertainty). -/
inductive BareUncertainty : Str → Str → Prop
  /-- `12.3e+05±0` -/
  | plain (A pm Z : Str) (c : Char) (i j : ℕ) (hpm : PmSym pm) :
      BareUncertainty (A ++ pm ++ (List.replicate i c ++ Z ++ List.replicate j c)) Z
  /-- `(12.3±0)`, `(12.3±0)%`, `(12.3±0)e+05` -/
  | grouped (l A pm Z r tail : Str) (c : Char) (i j : ℕ) (hg : Group l r) (hpm : PmSym pm) :
      BareUncertainty (l ++ (A ++ pm ++ (List.replicate i c ++ Z ++ List.replicate j c)) ++ r ++ tail) Z
  /-- `12.3(0)`, `12.3(0)e+05` -/
  | shorthand (N Z tail : Str) (c : Char) (i j : ℕ) :
      BareUncertainty (List.replicate i c ++ (N ++ '(' :: (Z ++ ')' :: tail)) ++ List.replicate j c) Z

/-- The integer 0, possibly with more zeros and thousands separators (zero padding). -/
def IsZeroText (Z : Str) : Prop := (∀ c ∈ Z, c = '0' ∨ c = ',') ∧ '0' ∈ Z

/-- The number of digits of the integer `m` that represents `s` in units of `10**l` is that of the rules of the Particle
Data Group. -/
def PdgDigits (s : ℚ) (m l : ℤ) : Prop :=
  ∃ t d, LeadingDigits s t d ∧ (t ≤ 354 → HasDigits m 2) ∧ (355 ≤ t → t ≤ 949 → HasDigits m 1) ∧
    (950 ≤ t → m = 10 ∧ l = d)

/-- The exponent printed by the general formats, for a number whose first digit has position `e` and whose last
significant digit has position `l`. -/
def generalExp (e l : ℤ) : Option ℤ := if e < -4 ∨ 0 < l then some e else none

end Unc
