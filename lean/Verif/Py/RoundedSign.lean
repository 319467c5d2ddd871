import Verif.Py.NRRounded

/-
Signs of floats: the comparison `x < 0` tells the sign of the number, and the unit roundoff is less than 1.
-/

set_option autoImplicit false

namespace Unc

/-- Laws of the comparison `x < 0`, and of the size of rounding errors. -/
class RoundedSign (F : Type) [PyFloat F] [Rounded F] : Prop where
  u_lt_one : Rounded.u F < 1
  ltb_neg : ∀ a : F, Rounded.Fin a → PyFloat.ltb a 0 = true → Rounded.val a < 0

instance : RoundedSign B64 where
  u_lt_one := by change (2 : ℝ)⁻¹ ^ 53 < 1; norm_num
  ltb_neg a h h0 := by
    obtain ⟨m, rfl⟩ := (B64.fin_iff a).1 h
    have h1 : decide (m < 0) = true := h0
    have h2 : (m : ℝ) < 0 := by exact_mod_cast of_decide_eq_true h1
    change (m : ℝ) * (2 : ℝ)⁻¹ ^ 1074 < 0
    exact mul_neg_of_neg_of_pos h2 (by positivity)

instance : RoundedSign NR where
  u_lt_one := by change (0 : ℝ) < 1; norm_num
  ltb_neg a h h0 := by
    cases a with
    | nan => exact h.elim
    | fin x =>
      have h1 : decide (x < 0) = true := h0
      exact of_decide_eq_true h1

end Unc
