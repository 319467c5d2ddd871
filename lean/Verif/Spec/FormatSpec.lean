import Verif.Model.Format

/-!
# Format specifications, as documented

`[[fill]align][sign][0][width][,][.precision][u][type][options]`
-/

set_option autoImplicit false

namespace Unc

/-- The text of the precision. -/
def precText : Option Str → Str
  | some d => '.' :: d
  | none => []

/-- The text of a format specification with given parts. -/
def FmtParts.text (p : FmtParts) : Str :=
  p.fill ++ (p.align ++ (p.sign ++ (p.zero ++ (p.width ++ (p.comma ++ (precText p.prec ++ (p.uncertPrec ++ (p.type ++ p.options))))))))

/-- The characters allowed in each part of a format specification.  A zero at the beginning of the width is the `zero`
part. -/
structure FmtParts.Valid (p : FmtParts) : Prop where
  fill : p.fill = [] ∨ ∃ c, p.fill = [c] ∧ c ≠ '{' ∧ c ≠ '}'
  align : p.align = [] ∨ ∃ c ∈ ['<', '>', '=', '^'], p.align = [c]
  sign : p.sign = [] ∨ ∃ c ∈ ['-', '+', ' '], p.sign = [c]
  zero : p.zero = [] ∨ p.zero = ['0']
  width : ∀ c ∈ p.width, isDigit c = true
  width_zero : p.zero = [] → p.width.head? ≠ some '0'
  comma : p.comma = [] ∨ p.comma = [',']
  prec : ∀ d, p.prec = some d → d ≠ [] ∧ ∀ c ∈ d, isDigit c = true
  uncertPrec : p.uncertPrec = [] ∨ p.uncertPrec = ['u']
  type : p.type = [] ∨ ∃ c ∈ ['e', 'E', 'f', 'F', 'g', 'G', '%'], p.type = [c]
  options : ∀ c ∈ p.options, c ∈ ['P', 'S', 'L', 'p']

end Unc
