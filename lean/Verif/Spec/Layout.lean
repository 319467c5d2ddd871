import Verif.Spec.Printed
import Verif.Spec.FormatSpec

/-!
# Vocabulary for the layout of printed numbers: width, alignment, sign, zero padding, separators, options

Nothing here refers to the way in which the strings are produced.
-/

set_option autoImplicit false

namespace Unc

/-- `t` is `core` in a field of at least `w` characters: fill characters `c` are added only as needed, on the right for
the alignment `<`, on both sides for `^`, and on the left otherwise. -/
def InField (c : Char) (align : Str) (w : ℕ) (core t : Str) : Prop :=
  ∃ i j, t = List.replicate i c ++ core ++ List.replicate j c ∧ t.length = max w core.length ∧
    (align = ['<'] → i = 0) ∧ (align = ['^'] → j = i ∨ j = i + 1) ∧ (align ≠ ['<'] → align ≠ ['^'] → j = 0)

/-- Digits in groups of three, separated by commas; the first group has one, two or three digits. -/
inductive Grouped : Str → Prop
  | first (ds : Str) (h : IsDigits ds) (h1 : 1 ≤ ds.length) (h3 : ds.length ≤ 3) : Grouped ds
  | next (g ds : Str) (hg : Grouped g) (h : IsDigits ds) (h3 : ds.length = 3) : Grouped (g ++ ',' :: ds)

/-- The sign printed for the number `x`. -/
def signText (x : ℚ) (option : Str) : Str :=
  if x < 0 then ['-'] else if option = ['+'] then ['+'] else if option = [' '] then [' '] else []

/-- The digits do not begin with a superfluous zero. -/
def NoExtraZero (ds : Str) : Prop := ds.head? = some '0' → ds = ['0']

/-- `t` is the number `q` printed with the sign `sg` and `places` digits after the decimal point.  With `comma`, there are
thousands separators.  If there is a width `pad`, zeros are added after the sign so as to have `pad` characters (one more
when the first character would be a separator); otherwise there is no superfluous zero. -/
def NumberText (t sg : Str) (comma : Bool) (pad : Option ℕ) (places : ℕ) (q : ℚ) : Prop :=
  ∃ ip ds : Str, t = sg ++ ip ++ (if places = 0 then [] else '.' :: ds) ∧
    IsDigits ds ∧ ds.length = places ∧
    (if comma then Grouped ip else IsDigits ip ∧ ip ≠ []) ∧
    q = signVal sg * (digitsVal (ip.filter isDigit ++ ds) / 10 ^ places) ∧
    (NoExtraZero (ip.filter isDigit) ∨
      ∃ k, pad = some k ∧ (t.length = k ∨ comma = true ∧ t.length = k + 1)) ∧
    (∀ k, pad = some k → k ≤ t.length)

/-- The three output styles. -/
inductive Style
  | default | pretty | latex
  deriving DecidableEq

/-- The style selected by the options: P (pretty-print) is stronger than L (LaTeX). -/
def styleOf (options : Str) : Style :=
  if 'P' ∈ options then .pretty else if 'L' ∈ options then .latex else .default

/-- The symbol between nominal value and uncertainty. -/
def Style.pm : Style → Str
  | .default => "+/-".toList
  | .pretty => "±".toList
  | .latex => " \\pm ".toList

/-- Opening parenthesis. -/
def Style.left : Style → Str
  | .latex => "\\left(".toList
  | _ => "(".toList

/-- Closing parenthesis. -/
def Style.right : Style → Str
  | .latex => "\\right)".toList
  | _ => ")".toList

/-- `t` is the exponent `n` in the given style, with `E` instead of `e` if `upper`. -/
def ExpText (st : Style) (upper : Bool) (t : Str) (n : ℤ) : Prop :=
  match st with
  | .default => ∃ ds, t = (if upper then 'E' else 'e') :: (if n < 0 then '-' else '+') :: ds ∧ IsDigits ds ∧
      2 ≤ ds.length ∧ digitsVal ds = n.natAbs
  | .pretty => ∃ i, t = "×10".toList ++ i.map toSup ∧ PlainInt i n
  | .latex => ∃ i, t = " \\times 10^{".toList ++ i ++ "}".toList ∧ PlainInt i n

/-- `t` is an exponent, or nothing. -/
def OptExpText (st : Style) (upper : Bool) (t : Str) : Option ℤ → Prop
  | none => t = []
  | some n => ExpText st upper t n

/-- The percent sign, if any. -/
def percentText (p : FmtParts) : Str :=
  if p.type = ['%'] then (if 'L' ∈ p.options then " \\%".toList else "%".toList) else []

/-- `s`, between parentheses if `b`. -/
def parenthesized (st : Style) (b : Bool) (s : Str) : Str := if b then st.left ++ s ++ st.right else s

/-- Is the type one of `E`, `F`, `G`? -/
def upperCase (p : FmtParts) : Bool := p.type = ['E'] || p.type = ['F'] || p.type = ['G']

/-- The fill character: a space by default. -/
def FmtParts.fillChar (p : FmtParts) : Char := p.fill.headD ' '

/-- The number of characters that zero padding must give to a number that is followed by `n` characters, if zero padding
is requested. -/
def FmtParts.padding (p : FmtParts) (n : ℕ) : Option ℕ :=
  if p.zero = ['0'] ∧ p.width ≠ [] then some (digitsVal p.width - n) else none

/-- The string `out` shows the nominal value `n`, which has the sign of `x`, and the uncertainty `u`, in the ± notation,
with the layout requested by the format specification. -/
def PmLayout (p : FmtParts) (x : ℚ) (n u : Shown) (out : Str) : Prop :=
  ∃ N U e : Str, u.exp = n.exp ∧ OptExpText (styleOf p.options) (upperCase p) e n.exp ∧
    NumberText N (signText x p.sign) (p.comma ≠ []) (p.padding e.length) n.places n.mantissa ∧
    NumberText U [] (p.comma ≠ []) (p.padding e.length) u.places u.mantissa ∧
    -- no width: a common exponent is factored
    (p.width = [] → out = parenthesized (styleOf p.options) (n.exp.isSome || p.type = ['%'] || 'p' ∈ p.options)
      (N ++ (styleOf p.options).pm ++ U) ++ e ++ percentText p) ∧
    -- with a width: the nominal value and the uncertainty, each with its exponent, are in a field of this width
    (p.width ≠ [] → ∃ A B, InField p.fillChar p.align (digitsVal p.width) (N ++ e) A ∧
      InField p.fillChar p.align (digitsVal p.width) (U ++ e) B ∧
      out = parenthesized (styleOf p.options) (p.type = ['%'] || 'p' ∈ p.options)
        (A ++ (styleOf p.options).pm ++ B) ++ percentText p)

/-- The string `out` shows the nominal value `n`, which has the sign of `x`, and the uncertainty `u`, in the shorthand
notation, with the layout requested by the format specification. -/
def ShorthandLayout (p : FmtParts) (x : ℚ) (n u : Shown) (out : Str) : Prop :=
  ∃ N U e tail : Str, u.exp = n.exp ∧ OptExpText (styleOf p.options) (upperCase p) e n.exp ∧
    tail = "(".toList ++ U ++ ")".toList ++ e ++ percentText p ∧
    NumberText N (signText x p.sign) (p.comma ≠ []) (p.padding tail.length) n.places n.mantissa ∧
    Bracket n.places U u ∧
    (p.width = [] → out = N ++ tail) ∧
    (p.width ≠ [] → InField p.fillChar p.align (digitsVal p.width) (N ++ tail) out)

/-- Infinite or NaN. -/
def FNum.NotFinite (x : FNum) : Prop := x = .nan ∨ ∃ neg, x = .inf neg

/-- The word for a value that is not finite. -/
def specialWord (upper : Bool) : FNum → Str
  | .nan => if upper then ['N', 'A', 'N'] else ['n', 'a', 'n']
  | .inf _ => if upper then ['I', 'N', 'F'] else ['i', 'n', 'f']
  | .fin _ => []

/-- The word `word` after the sign `sg`; with a width `pad`, zeros are added between them so as to have `pad` characters. -/
def zeroPadded (sg : Str) (pad : Option ℕ) (word : Str) : Str :=
  sg ++ List.replicate (pad.getD 0 - (sg ++ word).length) '0' ++ word

/-- `t` is the text for a value `x` that is infinite or NaN, where `sg` is the sign of positive values and `pad` is the width
for zero padding, if any: upper case for the types `E`, `F` and `G`; LaTeX code with the option `L` (then, infinite values are
not padded with zeros). -/
def SpecialText (p : FmtParts) (sg : Str) (pad : Option ℕ) (x : FNum) (t : Str) : Prop :=
  match x with
  | .nan =>
    if 'L' ∈ p.options then t = "\\mathrm{".toList ++ zeroPadded sg pad (specialWord (upperCase p) x) ++ "}".toList
    else t = zeroPadded sg pad (specialWord (upperCase p) x)
  | .inf neg =>
    if 'L' ∈ p.options then t = (if neg then ['-'] else []) ++ "\\infty".toList
    else t = zeroPadded (if neg then ['-'] else sg) pad (specialWord (upperCase p) x)
  | .fin _ => False

/-- The fill character of a field which is not already filled by zero padding: a space by default; a zero if the width is
written with a zero in addition to the one that requests zero padding (`0010`). -/
def FmtParts.fieldFill (p : FmtParts) : Char := p.fill.headD (if p.width.head? = some '0' then '0' else ' ')

/-- The string `out` shows the values `x ± s` in the ± notation, where infinite and NaN values are written in words and a zero
uncertainty is written 0. -/
def SpecialPmLayout (p : FmtParts) (x s : FNum) (out : Str) : Prop :=
  ∃ (N U e : Str) (E : Option ℤ), OptExpText (styleOf p.options) (upperCase p) e E ∧
    (x.NotFinite → SpecialText p (signText 1 p.sign) (p.padding 0) x N) ∧
    (s.NotFinite → SpecialText p [] (p.padding 0) s U) ∧
    (s = .fin 0 → NumberText U [] (p.comma ≠ []) (p.padding 0) 0 0 ∧ (p.zero = [] ∨ p.width = [] → U = "0".toList)) ∧
    -- zero padding of the numbers which are not special
    (¬ x.NotFinite → ∀ k, p.padding e.length = some k → k ≤ N.length) ∧
    (¬ (s.NotFinite ∨ s = .fin 0) → ∀ k, p.padding e.length = some k → k ≤ U.length) ∧
    (x.NotFinite → s.NotFinite → E = none) ∧
    (p.width = [] → out = parenthesized (styleOf p.options) (E.isSome || p.type = ['%'] || 'p' ∈ p.options)
      (N ++ (styleOf p.options).pm ++ U) ++ e ++ percentText p) ∧
    -- with a width, the exponent is given to finite values only (and not to a zero uncertainty)
    (p.width ≠ [] → ∃ A B eN eU, (x.NotFinite → eN = []) ∧ (¬ x.NotFinite → eN = e) ∧
      (s.NotFinite ∨ s = .fin 0 → eU = []) ∧ (¬ (s.NotFinite ∨ s = .fin 0) → eU = e) ∧
      InField p.fieldFill p.align (digitsVal p.width) (N ++ eN) A ∧
      InField p.fieldFill p.align (digitsVal p.width) (U ++ eU) B ∧
      out = parenthesized (styleOf p.options) (p.type = ['%'] || 'p' ∈ p.options)
        (A ++ (styleOf p.options).pm ++ B) ++ percentText p)

/-- Idem, in the shorthand notation. -/
def SpecialShorthandLayout (p : FmtParts) (x s : FNum) (out : Str) : Prop :=
  ∃ (N U e tail : Str) (E : Option ℤ), OptExpText (styleOf p.options) (upperCase p) e E ∧
    tail = "(".toList ++ U ++ ")".toList ++ e ++ percentText p ∧
    (x.NotFinite → SpecialText p (signText 1 p.sign) (p.padding tail.length) x N) ∧
    (s.NotFinite → SpecialText p [] none s U) ∧ (s = .fin 0 → U = "0".toList) ∧
    (¬ x.NotFinite → ∀ k, p.padding tail.length = some k → k ≤ N.length) ∧
    (x.NotFinite → s.NotFinite → E = none) ∧
    (p.width = [] → out = N ++ tail) ∧
    (p.width ≠ [] → InField p.fieldFill p.align (digitsVal p.width) (N ++ tail) out)

end Unc
