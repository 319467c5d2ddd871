import Verif.Py.NRMath
import Verif.Py.RoundedOps

/-
Exact arithmetic (`Py/NR.lean`) satisfies the laws of rounding (`Py/Rounded.lean`, etc.), with rounding errors equal to 0.
-/

set_option autoImplicit false

namespace Unc
namespace NR

/-- Neither infinite nor NaN. -/
def IsFin : NR → Prop
  | fin _ => True
  | nan => False

/-- The real number. -/
noncomputable def real : NR → ℝ
  | fin x => x
  | nan => 0

noncomputable instance : Rounded NR where
  val := real
  Fin := IsFin
  u := 0
  η := 0
  u_nonneg := le_rfl
  η_nonneg := le_rfl
  fin_zero := trivial
  val_zero := rfl
  fin_one := trivial
  val_one := rfl
  add a b h := by
    cases a <;> cases b <;> first | exact h.elim | exact ⟨trivial, trivial, by simp [real]⟩
  zero_add a h := by
    cases a <;> first | exact h.elim | simp [real]
  mul a b h := by
    cases a <;> cases b <;> first | exact h.elim | exact ⟨trivial, trivial, by simp [real]⟩
  abs a h := by
    cases a <;> first | exact h.elim | exact ⟨trivial, rfl⟩
  sq a y h hf := by
    cases h
    cases a with
    | nan => exact hf.elim
    | fin x =>
      refine ⟨trivial, ?_⟩
      show |x * x - x ^ 2| ≤ 0 * x ^ 2 + 0
      rw [← pow_two]; simp
  sqrt a y h hf := by
    cases a with
    | nan => cases h; exact hf.elim
    | fin x =>
      simp only [PyFloat.sqrt] at h
      split at h
      · cases h
      · rename_i hx
        cases h
        exact ⟨trivial, not_lt.1 hx, by simp [real]⟩
  ltb_zero a h hl := by
    cases a with
    | nan => exact h.elim
    | fin x =>
      have : decide (x < 0) = false := hl
      simpa [real] using this
  isInf a _ := rfl
  eqb_zero a h := by
    cases a with
    | nan => cases h
    | fin x =>
      have : decide (x = 0) = true := h
      exact ⟨trivial, by simpa [real] using this⟩

noncomputable instance : RoundedDiv NR where
  div a b y h hf hb := by
    cases b with
    | nan => exact hb.elim
    | fin z =>
      cases a with
      | nan =>
        simp only [PyFloat.truediv] at h
        split at h
        · cases h
        · cases h; exact hf.elim
      | fin x =>
        simp only [PyFloat.truediv] at h
        split at h
        · cases h
        · rename_i hz
          cases h
          exact ⟨trivial, hz, by simp [Rounded.val, Rounded.u, Rounded.η, real]⟩
  not_fin_nan h := h
  sqrt_ok a h h0 := by
    cases a with
    | nan => exact h.elim
    | fin x =>
      refine ⟨fin √x, ?_, trivial⟩
      have : ¬ x < 0 := not_lt.2 h0
      simp only [PyFloat.sqrt, this, if_false]

noncomputable instance : RoundedStep NR where
  sub a b h := by
    cases a <;> cases b <;> first | exact h.elim | exact ⟨trivial, trivial, by simp [Rounded.val, Rounded.u, Rounded.η, real]⟩
  fin_two := trivial
  val_two := rfl
  fin_step := trivial
  val_step := by
    show √((2 : ℝ) ^ (-52 : ℤ)) = 2⁻¹ ^ 26
    have : (2 : ℝ) ^ (-52 : ℤ) = (2⁻¹ ^ 26) ^ 2 := by norm_num
    rw [this, Real.sqrt_sq (by positivity)]
  mul_nonneg a b h ha hb := by
    cases a <;> cases b <;> first | exact h.elim | exact mul_nonneg ha hb
  ne_zero a h he := by
    cases a with
    | nan => exact h.elim
    | fin x =>
      have : decide (x = 0) = false := he
      simpa [Rounded.val, real] using this

noncomputable instance : RoundedOps NR where
  neg a h := by
    cases a <;> first | exact h.elim | exact ⟨trivial, rfl⟩
  zero_ltb a h := by
    cases a with
    | nan => exact h.elim
    | fin x =>
      show decide (0 < x) = true ↔ 0 < x
      simp
  sq_fin a y h ha := by
    cases h
    cases a with
    | nan => exact ha.elim
    | fin x => trivial

end NR
end Unc
