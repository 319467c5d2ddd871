import Verif.Spec.Printed

/-!
# Vocabulary for the numbers printed by the general formats of Python
-/

set_option autoImplicit false

namespace Unc

/-- `t` is the number `q`, as it is written by the general formats of Python: possible spaces, decimal number (possibly with
zeros on the left and thousands separators), possible exponent. -/
def General (t : Str) (q : ℚ) : Prop :=
  ∃ (i : ℕ) (m x : Str) (p : ℕ) (r : ℚ) (e : Option ℤ),
    t = List.replicate i ' ' ++ (m ++ x) ∧ Fixed m p r ∧ OptExp x e ∧ q = r * (10 : ℚ) ^ e.getD 0

/-- `v` is `x` rounded to `n` significant digits, or `x` itself if it is zero. -/
def RoundedTo (n : ℕ) (x v : ℚ) : Prop :=
  (x = 0 ∧ v = 0) ∨ ∃ d : ℤ, HasExponent x d ∧ |x - v| ≤ (10 : ℚ) ^ (d - n + 1) / 2 ∧ ∃ m : ℤ, v = m * (10 : ℚ) ^ (d - n + 1)

/-- `x` has finitely many decimals, as all floats do. -/
def IsDecimal (x : ℚ) : Prop := ∃ (m : ℤ) (k : ℕ), x = m / (10 : ℚ) ^ k

end Unc
