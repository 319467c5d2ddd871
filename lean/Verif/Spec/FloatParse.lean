import Verif.Spec.FloatFormat
import Verif.Spec.Text
import Verif.Model.FloatParse

/-!
# Vocabulary for parsing with floating-point arithmetic
-/

set_option autoImplicit false

namespace Unc

/-- `t` is the number `x`, times `10**n` if a factor `×10…` is written (as `×10³` or `× 10+3`): a decimal number, possibly
with an exponent (`e3`, `E+03`), or `nan`, or `inf`, with blanks around. -/
inductive WrittenNum : Str → FNum → Option ℤ → Prop
  | plain (a sg b : Str) (d : Decimal) (ha : IsBlanks a) (hb : IsBlanks b) (hsg : IsSign sg) :
      WrittenNum (a ++ (sg ++ d.text) ++ b) (.fin (signVal sg * d.value)) none
  | exp (a sg b : Str) (d : Decimal) (ha : IsBlanks a) (hb : IsBlanks b) (hsg : IsSign sg) (c : Char)
      (hc : c = 'e' ∨ c = 'E') (t : Str) (n : ℤ) (ht : PlainInt t n) :
      WrittenNum (a ++ (sg ++ (d.text ++ c :: t)) ++ b) (.fin (signVal sg * d.value * 10 ^ n)) none
  | times (a sg b : Str) (d : Decimal) (ha : IsBlanks a) (hb : IsBlanks b) (hsg : IsSign sg) (u v t : Str)
      (hu : IsBlanks u) (hv : IsBlanks v) (n : ℤ) (ht : IntText t n) (hn : n ≤ 308) :
      WrittenNum (a ++ (sg ++ d.text) ++ u ++ '×' :: (v ++ '1' :: '0' :: (t ++ b))) (.fin (signVal sg * d.value)) (some n)
  | nan (a sg b t : Str) (ha : IsBlanks a) (hb : IsBlanks b) (hsg : IsSign sg)
      (ht : t = "nan".toList ∨ t = "NAN".toList ∨ t = "NaN".toList) : WrittenNum (a ++ (sg ++ t) ++ b) .nan none
  | inf (a sg b t : Str) (ha : IsBlanks a) (hb : IsBlanks b) (hsg : IsSign sg)
      (ht : t = "inf".toList ∨ t = "INF".toList ∨ t = "Inf".toList) :
      WrittenNum (a ++ (sg ++ t) ++ b) (.inf (decide (sg = ['-']))) none

/-- Zero, or a number between `1e-290` and `1e290` in absolute value. -/
def Ranged (x : ℚ) : Prop := x = 0 ∨ (10 : ℚ) ^ (-290 : ℤ) ≤ |x| ∧ |x| ≤ (10 : ℚ) ^ (290 : ℤ)

/-- `y` is `x` up to rounding errors: a relative error of at most `1e-14`. -/
def NearFl (y x : ℚ) : Prop := |y - x| ≤ |x| / 10 ^ 14

/-- The number read is the number written: up to rounding errors, or the same infinity, or both NaN. -/
def ReadAs : FNum → FNum → Prop
  | .fin y, .fin x => NearFl y x
  | .inf s, .inf t => s = t
  | .nan, .nan => True
  | _, _ => False

/-- The exponent `i` of a factor `×10…` and a common exponent `n` are between -300 and 300, and the number, its product
with the first factor and its product with both are zero or between `1e-290` and `1e290`. -/
def Reach (x : FNum) (i : Option ℤ) (n : ℤ) : Prop := (∀ k ∈ i, -300 ≤ k ∧ k ≤ 300) ∧ -300 ≤ n ∧ n ≤ 300 ∧
  ∀ v, x = .fin v → Ranged v ∧ Ranged (v * 10 ^ i.getD 0) ∧ Ranged (v * 10 ^ i.getD 0 * 10 ^ n)

end Unc
