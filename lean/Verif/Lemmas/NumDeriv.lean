import Mathlib.Analysis.Calculus.MeanValue
import Mathlib.Analysis.Calculus.Deriv.Pow
import Mathlib.Analysis.Calculus.Deriv.Add
import Verif.Spec.Deriv

/-
Numerical differentiation in exact arithmetic.
-/

namespace Unc

set_option autoImplicit false

open Topology Filter NR

/-- `STEP_SIZE` -/
noncomputable def stepConst : ℝ := Real.sqrt (2 ^ (-52 : ℤ))

theorem stepConst_pos : 0 < stepConst := Real.sqrt_pos.mpr (by positivity)

theorem stepConst_eq : stepConst = 2 ^ (-26 : ℤ) := by
  have : (2:ℝ) ^ (-52 : ℤ) = (2 ^ (-26 : ℤ)) ^ 2 := by norm_num
  rw [stepConst, this, Real.sqrt_sq (by positivity)]

theorem stepConst_lt_one : stepConst < 1 := by rw [stepConst_eq]; norm_num

/-- The step used at `x`. -/
noncomputable def stepReal (x : ℝ) : ℝ := if x = 0 then stepConst else stepConst * |x|

theorem stepReal_pos (x : ℝ) : 0 < stepReal x := by
  unfold stepReal
  split
  · exact stepConst_pos
  · rename_i h; exact mul_pos stepConst_pos (abs_pos.mpr h)

theorem derivStep_real (x : ℝ) : derivStep (fin x) = fin (stepReal x) := by
  have e : (PyFloat.stepSize * PyFloat.abs (fin x) : NR) = fin (stepConst * |x|) := rfl
  unfold derivStep stepReal
  simp only [e]
  by_cases h : x = 0
  · have : PyFloat.truthy (fin (stepConst * |x|)) = false := by
      simp [PyFloat.truthy, PyFloat.eqb, h]
    rw [this, if_pos h]; rfl
  · have : PyFloat.truthy (fin (stepConst * |x|)) = true := by
      simp [PyFloat.truthy, PyFloat.eqb, h, stepConst_pos.ne']
    simp [this, h]

theorem centralDiff_real (p m h : ℝ) (hh : h ≠ 0) :
    centralDiff (.flt (fin p)) (.flt (fin m)) (fin h) = .ok (fin ((p - m) / 2 / h)) := by
  have e2 : PyFloat.truediv (fin (p - m)) (PyFloat.two : NR) = .ok (fin ((p - m) / 2)) := by
    simp [PyFloat.truediv, PyFloat.two]
  simp only [centralDiff, fin_sub, e2]
  simp [PyFloat.truediv, hh]

theorem flts_set (xs : List ℝ) (i : Nat) (t : ℝ) : (flts xs).set i (.flt (fin t)) = flts (xs.set i t) := by
  simp [flts, List.map_set]

theorem minus_step (x h : ℝ) : (fin x + fin h - PyFloat.two * fin h : NR) = fin (x - h) := by
  change fin (x + h - 2 * h) = _
  congr 1; ring

theorem partialDerivative_real {f : PyFn NR} {xs : List ℝ} {i : Nat} (hi : i < xs.length) {kw : KwArgs NR}
    {gp gm : ℝ} (hp : f (flts (xs.set i (xs.getD i 0 + stepReal (xs.getD i 0)))) kw = .ok (.flt (fin gp)))
    (hm : f (flts (xs.set i (xs.getD i 0 - stepReal (xs.getD i 0)))) kw = .ok (.flt (fin gm))) :
    partialDerivative f (.pos i) (flts xs) kw =
      .ok (fin ((gp - gm) / 2 / stepReal (xs.getD i 0))) := by
  have hx : (flts xs)[i]? = some (.flt (fin (xs.getD i 0))) := by
    simp [flts, hi]
  simp only [partialDerivative, hx, derivStep_real, fin_add, flts_set, hp]
  rw [← fin_add, minus_step, flts_set]
  simp only [hm]
  exact centralDiff_real _ _ _ (stepReal_pos _).ne'

/-- Idem for a keyword argument. -/
theorem partialDerivative_real_kw {f : PyFn NR} {args : List (PyVal NR)} {kw : KwArgs NR} {name : String}
    {x : ℝ} (hx : kw.lookup name = some (.flt (fin x))) {gp gm : ℝ}
    (hp : f args (setKw kw name (.flt (fin (x + stepReal x)))) = .ok (.flt (fin gp)))
    (hm : f args (setKw kw name (.flt (fin (x - stepReal x)))) = .ok (.flt (fin gm))) :
    partialDerivative f (.kw name) args kw = .ok (fin ((gp - gm) / 2 / stepReal x)) := by
  simp only [partialDerivative, hx, derivStep_real, fin_add, hp]
  rw [← fin_add, minus_step]
  simp only [hm]
  exact centralDiff_real _ _ _ (stepReal_pos _).ne'

/-- The error of central differences. -/
theorem central_bound {g g1 g2 g3 : ℝ → ℝ} {x h M : ℝ} (hh : 0 < h)
    (h1 : ∀ t, |t - x| ≤ h → HasDerivAt g (g1 t) t) (h2 : ∀ t, |t - x| ≤ h → HasDerivAt g1 (g2 t) t)
    (h3 : ∀ t, |t - x| ≤ h → HasDerivAt g2 (g3 t) t) (hM : ∀ t, |t - x| ≤ h → |g3 t| ≤ M) :
    |(g (x + h) - g (x - h)) / 2 / h - g1 x| ≤ h ^ 2 / 6 * M := by
  have hp : ∀ s, s ∈ Set.Icc 0 h → |x + s - x| ≤ h := by
    intro s hs; rw [add_sub_cancel_left, abs_of_nonneg hs.1]; exact hs.2
  have hm : ∀ s, s ∈ Set.Icc 0 h → |x - s - x| ≤ h := by
    intro s hs; rw [sub_sub_cancel_left, abs_neg, abs_of_nonneg hs.1]; exact hs.2
  have dplus : ∀ {u u' : ℝ → ℝ} (_ : ∀ t, |t - x| ≤ h → HasDerivAt u (u' t) t) (s : ℝ),
      s ∈ Set.Icc 0 h → HasDerivAt (fun s => u (x + s)) (u' (x + s)) s := by
    intro u u' hu s hs
    have := (hu _ (hp s hs)).comp s ((hasDerivAt_id s).const_add x)
    rw [mul_one] at this
    exact this
  have dminus : ∀ {u u' : ℝ → ℝ} (_ : ∀ t, |t - x| ≤ h → HasDerivAt u (u' t) t) (s : ℝ),
      s ∈ Set.Icc 0 h → HasDerivAt (fun s => u (x - s)) (-u' (x - s)) s := by
    intro u u' hu s hs
    have := (hu _ (hm s hs)).comp s ((hasDerivAt_id s).const_sub x)
    rw [mul_neg_one] at this
    exact this
  -- second derivative
  have b2 : ∀ s ∈ Set.Icc 0 h, ‖g2 (x + s) - g2 (x - s)‖ ≤ 2 * M * s := by
    refine image_norm_le_of_norm_deriv_right_le_deriv_boundary (f := fun s => g2 (x + s) - g2 (x - s))
      (f' := fun s => g3 (x + s) + g3 (x - s)) (B := fun s => 2 * M * s) (B' := fun _ => 2 * M)
      ?_ ?_ ?_ ?_ ?_
    · intro s hs
      exact ((dplus h3 s hs).continuousAt.sub (dminus h3 s hs).continuousAt).continuousWithinAt
    · intro s hs
      have := (dplus h3 s ⟨hs.1, hs.2.le⟩).sub (dminus h3 s ⟨hs.1, hs.2.le⟩)
      rw [sub_neg_eq_add] at this
      exact this.hasDerivWithinAt
    · simp
    · intro s
      simpa using (hasDerivAt_id s).const_mul (2 * M)
    · intro s hs
      have hs' : s ∈ Set.Icc 0 h := ⟨hs.1, hs.2.le⟩
      calc ‖g3 (x + s) + g3 (x - s)‖ ≤ ‖g3 (x + s)‖ + ‖g3 (x - s)‖ := norm_add_le _ _
        _ ≤ M + M := add_le_add (hM _ (hp s hs')) (hM _ (hm s hs'))
        _ = 2 * M := by ring
  have b1 : ∀ s ∈ Set.Icc 0 h, ‖g1 (x + s) + g1 (x - s) - 2 * g1 x‖ ≤ M * s ^ 2 := by
    refine image_norm_le_of_norm_deriv_right_le_deriv_boundary
      (f := fun s => g1 (x + s) + g1 (x - s) - 2 * g1 x)
      (f' := fun s => g2 (x + s) - g2 (x - s)) (B := fun s => M * s ^ 2) (B' := fun s => 2 * M * s)
      ?_ ?_ ?_ ?_ ?_
    · intro s hs
      exact (((dplus h2 s hs).continuousAt.add (dminus h2 s hs).continuousAt).sub
        continuousAt_const).continuousWithinAt
    · intro s hs
      have := ((dplus h2 s ⟨hs.1, hs.2.le⟩).add (dminus h2 s ⟨hs.1, hs.2.le⟩)).sub_const (2 * g1 x)
      rw [← sub_eq_add_neg] at this
      exact this.hasDerivWithinAt
    · simp; ring_nf
    · intro s
      have := (hasDerivAt_pow 2 s).const_mul M
      have e : M * (((2 : ℕ) : ℝ) * s ^ (2 - 1)) = 2 * M * s := by push_cast; ring
      rw [e] at this; exact this
    · intro s hs
      exact b2 s ⟨hs.1, hs.2.le⟩
  have b0 : ∀ s ∈ Set.Icc 0 h, ‖g (x + s) - g (x - s) - 2 * g1 x * s‖ ≤ M / 3 * s ^ 3 := by
    refine image_norm_le_of_norm_deriv_right_le_deriv_boundary
      (f := fun s => g (x + s) - g (x - s) - 2 * g1 x * s)
      (f' := fun s => g1 (x + s) + g1 (x - s) - 2 * g1 x) (B := fun s => M / 3 * s ^ 3)
      (B' := fun s => M * s ^ 2) ?_ ?_ ?_ ?_ ?_
    · intro s hs
      exact (((dplus h1 s hs).continuousAt.sub (dminus h1 s hs).continuousAt).sub
        (continuousAt_const.mul continuousAt_id)).continuousWithinAt
    · intro s hs
      have := ((dplus h1 s ⟨hs.1, hs.2.le⟩).sub (dminus h1 s ⟨hs.1, hs.2.le⟩)).sub
        ((hasDerivAt_id s).const_mul (2 * g1 x))
      rw [sub_neg_eq_add, mul_one] at this
      exact this.hasDerivWithinAt
    · simp
    · intro s
      have := (hasDerivAt_pow 3 s).const_mul (M / 3)
      have e : M / 3 * (((3 : ℕ) : ℝ) * s ^ (3 - 1)) = M * s ^ 2 := by push_cast; ring
      rw [e] at this; exact this
    · intro s hs
      exact b1 s ⟨hs.1, hs.2.le⟩
  have key := b0 h ⟨hh.le, le_refl h⟩
  rw [Real.norm_eq_abs] at key
  have e : (g (x + h) - g (x - h)) / 2 / h - g1 x = (g (x + h) - g (x - h) - 2 * g1 x * h) / (2 * h) := by
    field_simp
  rw [e, abs_div, abs_of_pos (by positivity : (0:ℝ) < 2 * h), div_le_iff₀ (by positivity)]
  calc _ ≤ M / 3 * h ^ 3 := key
    _ = h ^ 2 / 6 * M * (2 * h) := by ring

end Unc
