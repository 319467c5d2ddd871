import Mathlib.Data.Int.Log
import Mathlib.Data.Rat.Floor
import Verif.Py.Basic

/-!
# Characters, numbers as text, and regular expressions

Formatting and parsing (core.py 873-1485, 1840-2337, 2947-3227) work on Python strings, on Python's `int()` and
`float()` and on the `re` module.  This file models these Python facilities:

* a Python string is a list of characters (`Str`);
* a float is an *exact rational*, an infinity or `nan` (`FNum`).  Simplifications: no rounding to 53 bits, no signed
  zero and no bound on the exponent, except that `10.**n` raises `OverflowError` when `n > 308` (`pow10`);
* "digit" means one of the ten ASCII digits (Python also accepts the other Unicode decimal digits, in `\d`, `int()`
  and `float()`; they are treated as any other character here);
* a regular expression is a function from the string to the *ordered list* of all the ways to match a prefix of it,
  in the order in which the backtracking matcher of `re` tries them: the match found by `re.match` is the first one.
-/

set_option autoImplicit false

namespace Unc

/-- A Python string. -/
abbrev Str := List Char

/-- A Python float in formatting and parsing: exact rational, infinity or not-a-number. -/
inductive FNum
  | fin (q : ℚ)
  | inf (neg : Bool)
  | nan
  deriving DecidableEq

namespace FNum

/-- `isinfinite(x)` (core.py 27-33): `isinf(x) or isnan(x)`. -/
def isInfinite : FNum → Bool
  | .fin _ => false
  | _ => true

/-- Truth value of a float: only zero is false. -/
def truthy : FNum → Bool
  | .fin q => q ≠ 0
  | _ => true

/-- `x < 0` -/
def isNeg : FNum → Bool
  | .fin q => q < 0
  | .inf neg => neg
  | .nan => false

/-- `x * f` for a finite positive factor `f` (a power of ten). -/
def scale (x : FNum) (f : ℚ) : FNum :=
  match x with
  | .fin q => .fin (q * f)
  | y => y

end FNum

/-- `10.**n`: `OverflowError` when the result is not in the range of floats. -/
def pow10 (n : ℤ) : PyRes ℚ :=
  if 308 < n then throw .overflowError else pure ((10 : ℚ) ^ n)

/-! ### Digits -/

/-- `\d` (ASCII digits only). -/
def isDigit (c : Char) : Bool := 48 ≤ c.toNat && c.toNat ≤ 57

/-- The value of a digit. -/
def digitVal (c : Char) : ℕ := c.toNat - 48

/-- The value of a string of digits. -/
def digitsVal (s : Str) : ℕ := s.foldl (fun a c => a * 10 + digitVal c) 0

/-- `'%d' % n` for a natural number. -/
def natStr (n : ℕ) : Str := Nat.toDigits 10 n

/-- The last `p` decimal digits of `n`, leading zeros included. -/
def padDigits : ℕ → ℕ → Str
  | 0, _ => []
  | p + 1, n => padDigits p (n / 10) ++ [Nat.digitChar (n % 10)]

/-- `'%d' % z` -/
def intStr (z : ℤ) : Str :=
  if z < 0 then '-' :: natStr z.natAbs else natStr z.natAbs

/-- `'%+03d' % z`: sign, and at least two digits. -/
def expDigits (z : ℤ) : Str :=
  (if z < 0 then '-' else '+') ::
    (if z.natAbs < 10 then '0' :: natStr z.natAbs else natStr z.natAbs)

/-! ### Python's conversions from strings -/

/-- `str.isspace` for one character; also the `\s` of regular expressions. -/
def isSpace (c : Char) : Bool :=
  let n := c.toNat
  (9 ≤ n && n ≤ 13) || (28 ≤ n && n ≤ 32) || n == 0x85 || n == 0xa0 || n == 0x1680
    || (0x2000 ≤ n && n ≤ 0x200a) || n == 0x2028 || n == 0x2029 || n == 0x202f || n == 0x205f || n == 0x3000

/-- Removal of the characters satisfying `p` at both ends. -/
def stripBy (p : Char → Bool) (s : Str) : Str :=
  ((s.dropWhile p).reverse.dropWhile p).reverse

/-- `s.strip()` -/
def strip (s : Str) : Str := stripBy isSpace s

/-- The spaces ignored by `int()` and `float()` at both ends.  Simplification: in a string with non-ASCII characters,
CPython also ignores the control characters 28 to 31. -/
def isNumSpace (c : Char) : Bool := isSpace c && !(28 ≤ c.toNat && c.toNat ≤ 31)

/-- Are all underscores between two digits?  (`prev`: previous character.) -/
def underscoresOk : Char → Str → Bool
  | prev, [] => prev ≠ '_'
  | prev, c :: s => (if prev = '_' then isDigit c else if c = '_' then isDigit prev else true) && underscoresOk c s

/-- `int()` and `float()` accept an underscore between two digits, and ignore it. -/
def dropUnderscores (s : Str) : Option Str :=
  if '_' ∈ s then
    if underscoresOk ' ' s then some (s.filter (· ≠ '_')) else none
  else some s

/-- Optional sign: is the number negative, and the rest of the string. -/
def takeSign : Str → Bool × Str
  | [] => (false, [])
  | c :: s => if c = '-' then (true, s) else if c = '+' then (false, s) else (false, c :: s)

/-- `int(s)`; `none` when `ValueError` is raised. -/
def pyInt (s : Str) : Option ℤ := do
  let s ← dropUnderscores (stripBy isNumSpace s)
  let (neg, ds) := takeSign s
  if ds ≠ [] ∧ ds.all isDigit then
    some (if neg then -(digitsVal ds : ℤ) else (digitsVal ds : ℤ))
  else none

/-- The exponent part of a float literal. -/
def parseExp : Str → Option ℤ
  | [] => some 0
  | c :: s =>
    if c = 'e' ∨ c = 'E' then
      let (neg, ds) := takeSign s
      if ds ≠ [] ∧ ds.all isDigit then
        some (if neg then -(digitsVal ds : ℤ) else (digitsVal ds : ℤ))
      else none
    else none

/-- Optional decimal part: its digits, and the rest of the string. -/
def takeDec : Str → Str × Str
  | [] => ([], [])
  | c :: t => if c = '.' then (t.takeWhile isDigit, t.dropWhile isDigit) else ([], c :: t)

/-- An unsigned decimal literal: digits, optional decimal part, optional exponent, at least one digit. -/
def parseDecimal (s : Str) : Option ℚ :=
  let ip := s.takeWhile isDigit
  let r := s.dropWhile isDigit
  let (fp, r) := takeDec r
  if ip ++ fp = [] then none
  else do
    let e ← parseExp r
    some ((digitsVal (ip ++ fp) : ℚ) * (10 : ℚ) ^ (e - fp.length))

/-- ASCII lower case. -/
def lower (s : Str) : Str := s.map Char.toLower

/-- `float(s)`; `none` when `ValueError` is raised. -/
def pyFloat (s : Str) : Option FNum := do
  let s ← dropUnderscores (stripBy isNumSpace s)
  let (neg, body) := takeSign s
  if lower body = "nan".toList then some .nan
  else if lower body = "inf".toList ∨ lower body = "infinity".toList then some (.inf neg)
  else do
    let q ← parseDecimal body
    some (.fin (if neg then -q else q))

/-! ### Regular expressions -/

/-- A matcher: all the ways to match a prefix of the string, in the order tried by `re`, with the rest of the string. -/
abbrev Re (α : Type) := Str → List (α × Str)

namespace Re

/-- One character satisfying `p`. -/
def one (p : Char → Bool) : Re Char
  | [] => []
  | c :: s => if p c then [(c, s)] else []

/-- A literal string. -/
def lit : Str → Re Unit
  | [], s => [((), s)]
  | c :: l, d :: s => if c = d then lit l s else []
  | _ :: _, [] => []

/-- `p*`, greedy: longest first. -/
def star (p : Char → Bool) : Re Str
  | [] => [([], [])]
  | c :: s => if p c then (star p s).map (fun r => (c :: r.1, r.2)) ++ [([], c :: s)] else [([], c :: s)]

/-- `p*?`, lazy: shortest first. -/
def lazyStar (p : Char → Bool) : Re Str
  | [] => [([], [])]
  | c :: s => if p c then ([], c :: s) :: (lazyStar p s).map (fun r => (c :: r.1, r.2)) else [([], c :: s)]

/-- `r?`, greedy: with `r` first. -/
def opt {α : Type} (r : Re α) : Re (Option α) := fun s =>
  (r s).map (fun m => (some m.1, m.2)) ++ [(none, s)]

/-- `p?` for a character, greedy, as a string. -/
def optC (p : Char → Bool) : Re Str := fun s =>
  (one p s).map (fun m => ([m.1], m.2)) ++ [([], s)]

/-- `p??` for a character, lazy, as a string. -/
def lazyOptC (p : Char → Bool) : Re Str := fun s =>
  ([], s) :: (one p s).map (fun m => ([m.1], m.2))

/-- Sequence. -/
def seq {α β : Type} (r : Re α) (f : α → Re β) : Re β := fun s =>
  (r s).flatMap fun m => f m.1 m.2

/-- Alternation: the first alternative is tried first. -/
def alt {α : Type} (r₁ r₂ : Re α) : Re α := fun s => r₁ s ++ r₂ s

def ret {α : Type} (a : α) : Re α := fun s => [(a, s)]

/-- `$`: at the end, or just before a newline at the end. -/
def eos : Re Unit := fun s => if s = [] ∨ s = ['\n'] then [((), s)] else []

/-- `.`: any character but a newline. -/
def dot (c : Char) : Bool := c ≠ '\n'

/-- `re.match`: the first match found, if any. -/
def first {α : Type} (r : Re α) (s : Str) : Option α := (r s).head?.map (·.1)

end Re

end Unc
