import Verif.Spec.Literal

/-!
# Strings accepted by the parser

The forms documented for `ufloat_fromstr` (core.py 3169-3222), and two forms that are not documented.
-/

set_option autoImplicit false

namespace Unc

/-- What introduces an exponent: `e`, `E`, or `×10` with possible spaces around `×`. -/
inductive ExpMark : Str → Prop
  | e : ExpMark ['e']
  | E : ExpMark ['E']
  | times (a b : Str) (ha : IsSpaces a) (hb : IsSpaces b) : ExpMark (a ++ '×' :: (b ++ ['1', '0']))

/-- An integer (as read by Python's `int()`) possibly written with superscripts. -/
def IsExponent (e : Str) : Prop := ∃ n, IntLiteral (e.map fromSup) n

/-- A number: something that Python's `float()` accepts, or such a thing followed by `×10` and an exponent. -/
inductive IsNumber : Str → Prop
  | float (t : Str) (x : FNum) (h : FloatLiteral t x) : IsNumber t
  | times (m a b e : Str) (x : FNum) (h : FloatLiteral m x) (ha : IsSpaces a) (hb : IsSpaces b) (he : IsExponent e) :
      IsNumber (m ++ (a ++ '×' :: (b ++ '1' :: '0' :: e)))

/-- An unsigned decimal number, or `nan`, `NAN`, `inf`, `INF`. -/
inductive IsUnsigned : Str → Prop
  | decimal (d : Decimal) : IsUnsigned d.text
  | name (t : Str) (h : t ∈ ["nan".toList, "NAN".toList, "inf".toList, "INF".toList]) : IsUnsigned t

/-- The uncertainty in parentheses, or nothing. -/
inductive IsParen : Str → Prop
  | none : IsParen []
  | some (t : Str) (h : IsUnsigned t) : IsParen ('(' :: (t ++ [')']))

/-- The optional exponent of the shorthand notation. -/
inductive IsExpPart : Str → Prop
  | none : IsExpPart []
  | some (m e : Str) (hm : ExpMark m) (he : IsExponent e) : IsExpPart (m ++ e)

/-- `N±U`. -/
inductive PmForm : Str → Prop
  | mk (N pm U : Str) (hN : IsNumber N) (hpm : IsPm pm) (hU : IsNumber U) : PmForm (N ++ pm ++ U)

/-- The shorthand notation: `-1.23(4)e5`. -/
inductive ShortForm : Str → Prop
  | mk (sg t u x : Str) (hsg : IsSign sg) (ht : IsUnsigned t) (hu : IsParen u) (hx : IsExpPart x) :
      ShortForm (sg ++ (t ++ (u ++ x)))

/-- Undocumented: the shorthand notation with an empty exponent: `1.23(4)e`. -/
inductive EmptyExpForm : Str → Prop
  | mk (sg t u m : Str) (hsg : IsSign sg) (ht : IsUnsigned t) (hu : IsParen u) (hm : ExpMark m) :
      EmptyExpForm (sg ++ (t ++ (u ++ m)))

/-- A factored exponent. -/
inductive Factored (P : Str → Prop) : Str → Prop
  | mk (c m e : Str) (hc : P c) (hm : ExpMark m) (he : IsExponent e) : Factored P ('(' :: (c ++ ')' :: (m ++ e)))

/-- The documented forms, without parentheses around everything. -/
inductive Documented : Str → Prop
  | pm (s : Str) (h : PmForm s) : Documented s
  | short (s : Str) (h : ShortForm s) : Documented s
  | factored (s : Str) (h : Factored PmForm s) : Documented s

/-- Forms that are accepted without being documented. -/
inductive Undocumented : Str → Prop
  | emptyExp (s : Str) (h : EmptyExpForm s) : Undocumented s
  | factoredShort (s : Str) (h : Factored ShortForm s) : Undocumented s
  | factoredEmptyExp (s : Str) (h : Factored EmptyExpForm s) : Undocumented s

/-- Possible parentheses around everything (option `p` of formats). -/
inductive WithParens (P : Str → Prop) : Str → Prop
  | bare (s : Str) (h : P s) : WithParens P s
  | parens (s : Str) (h : P s) : WithParens P ('(' :: (s ++ [')']))

end Unc
