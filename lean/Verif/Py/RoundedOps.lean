import Verif.Py.RoundedStep

/-
Laws of floating-point numbers used by the derivatives of the operators, in addition to those of `Py/Rounded.lean`,
`Py/RoundedDiv.lean` and `Py/RoundedStep.lean`, and the proof that double precision numbers (`Py/B64.lean`) satisfy them.
-/

set_option autoImplicit false

namespace Unc

/-- The opposite of a number, comparison with 0, and overflow of squares. -/
class RoundedOps (F : Type) [PyFloat F] extends RoundedStep F where
  neg : ∀ a : F, Fin (-a) → Fin a ∧ val (-a) = -val a
  zero_ltb : ∀ a : F, Fin a → (PyFloat.ltb 0 a = true ↔ 0 < val a)
  /-- `x**2` raises OverflowError if it is too large -/
  sq_fin : ∀ a y : F, PyFloat.sq a = .ok y → Fin a → Fin y

namespace B64

theorem checked_fin {x y : B64} (h : checked x = .ok y) (hx : x ≠ nan) : y.Fin := by
  cases x with
  | nan => exact (hx rfl).elim
  | inf s => cases h
  | fin m => cases h; trivial

theorem round_ne_nan (m : ℤ) (d : ℕ) : round m d ≠ nan := by
  unfold round
  split <;> exact fun h => by cases h

attribute [local irreducible] B64.round

theorem sq_fin' {m : ℤ} {y : B64} (h : sq (fin m) = .ok y) : y.Fin :=
  checked_fin h (round_ne_nan _ _)

noncomputable instance : RoundedOps B64 where
  neg _ h := neg_fin h
  zero_ltb a h := by
    obtain ⟨m, rfl⟩ := (fin_iff a).1 h
    have hp : (0 : ℝ) < (2 : ℝ)⁻¹ ^ 1074 := by positivity
    show decide ((0 : ℤ) < m) = true ↔ 0 < val (fin m)
    simp only [val, decide_eq_true_eq]
    constructor
    · intro h
      exact mul_pos (by exact_mod_cast h) hp
    · intro h
      by_contra h0
      have : (m : ℝ) ≤ 0 := by exact_mod_cast not_lt.1 h0
      exact absurd h (not_lt.2 (mul_nonpos_of_nonpos_of_nonneg this hp.le))
  sq_fin a y h ha := by
    obtain ⟨m, rfl⟩ := (fin_iff a).1 ha
    exact sq_fin' h

end B64
end Unc
