import Mathlib.Analysis.Calculus.Deriv.Inv
import Mathlib.Analysis.Calculus.Deriv.Mul
import Mathlib.Analysis.Calculus.Deriv.Abs
import Mathlib.Analysis.Calculus.Deriv.Prod
import Mathlib.Tactic.Linarith
import Mathlib.Tactic.Ring
import Mathlib.Tactic.Positivity
import Mathlib.Tactic.FieldSimp
import Verif.Spec.Formula

/-
Formulas (`Spec/Formula.lean`): derivatives, and effects of rounding errors.
-/

namespace Unc

set_option autoImplicit false

/-! ### Rounding errors -/

theorem roundingError_of {u η x x' r e : ℝ} (hu : 0 ≤ u) (h : |x' - x| ≤ e) (hr : |r - x'| ≤ u * |x'| + η) :
    |r - x| ≤ roundingError u η x e := by
  have h1 : |x'| ≤ |x| + e := by
    have := abs_add_le (x' - x) x
    rw [sub_add_cancel] at this
    linarith
  have h2 := abs_add_le (r - x') (x' - x)
  rw [sub_add_sub_cancel] at h2
  have h3 := mul_le_mul_of_nonneg_left h1 hu
  unfold roundingError
  linarith

theorem roundingError_nonneg {u η x e : ℝ} (hu : 0 ≤ u) (hη : 0 ≤ η) (he : 0 ≤ e) : 0 ≤ roundingError u η x e := by
  unfold roundingError
  positivity

theorem productError_of {a a' ea b b' eb : ℝ} (ha : |a' - a| ≤ ea) (hb : |b' - b| ≤ eb) :
    |a' * b' - a * b| ≤ productError a ea b eb := by
  have e : a' * b' - a * b = a * (b' - b) + b * (a' - a) + (a' - a) * (b' - b) := by ring
  rw [e]
  refine (abs_add_le _ _).trans ?_
  have h1 := abs_add_le (a * (b' - b)) (b * (a' - a))
  rw [abs_mul, abs_mul] at h1
  rw [abs_mul]
  have h2 := mul_le_mul_of_nonneg_left hb (abs_nonneg a)
  have h3 := mul_le_mul_of_nonneg_left ha (abs_nonneg b)
  have h4 := mul_le_mul ha hb (abs_nonneg _) ((abs_nonneg _).trans ha)
  unfold productError
  linarith

theorem productError_nonneg {a ea b eb : ℝ} (ha : 0 ≤ ea) (hb : 0 ≤ eb) : 0 ≤ productError a ea b eb := by
  unfold productError
  positivity

theorem quotientError_of {a a' ea b b' eb : ℝ} (ha : |a' - a| ≤ ea) (hb : |b' - b| ≤ eb) (h : eb < |b|) :
    |a' / b' - a / b| ≤ quotientError a ea b eb := by
  have h0 : 0 < |b| - eb := sub_pos.2 h
  have h1 : |b| - eb ≤ |b'| := by
    have := abs_add_le (b - b') b'
    rw [sub_add_cancel, abs_sub_comm] at this
    linarith
  have hb' : b' ≠ 0 := abs_pos.1 (h0.trans_le h1)
  have hb0 : b ≠ 0 := abs_pos.1 (((abs_nonneg _).trans hb).trans_lt h)
  have e : a' / b' - a / b = ((a' - a) - a / b * (b' - b)) / b' := by
    field_simp
    ring
  rw [e, abs_div]
  have h2 : |a' - a - a / b * (b' - b)| ≤ ea + |a / b| * eb := by
    refine (abs_sub _ _).trans ?_
    rw [abs_mul]
    have := mul_le_mul_of_nonneg_left hb (abs_nonneg (a / b))
    linarith
  exact div_le_div₀ ((abs_nonneg _).trans h2) h2 h0 h1

theorem quotientError_nonneg {a ea b eb : ℝ} (ha : 0 ≤ ea) (hb : 0 ≤ eb) (h : eb < |b|) :
    0 ≤ quotientError a ea b eb :=
  div_nonneg (by positivity) (sub_pos.2 h).le

theorem squareError_nonneg {u η b eb : ℝ} (hu : 0 ≤ u) (hη : 0 ≤ η) (hb : 0 ≤ eb) : 0 ≤ squareError u η b eb :=
  roundingError_nonneg hu hη (productError_nonneg hb hb)

theorem squareError_of {u η b b' eb r : ℝ} (hu : 0 ≤ u) (hb : |b' - b| ≤ eb) (hr : |r - b' ^ 2| ≤ u * b' ^ 2 + η) :
    |r - b ^ 2| ≤ squareError u η b eb := by
  refine roundingError_of (x' := b' ^ 2) hu ?_ (by rwa [abs_of_nonneg (sq_nonneg b')])
  rw [sq, sq]
  exact productError_of hb hb

theorem inverseError_nonneg {u η b eb : ℝ} (hu : 0 ≤ u) (hη : 0 ≤ η) (hb : 0 ≤ eb) (h : eb < |b|) :
    0 ≤ inverseError u η b eb :=
  roundingError_nonneg hu hη (quotientError_nonneg le_rfl hb h)

theorem inverseError_of {u η b b' eb r : ℝ} (hu : 0 ≤ u) (hb : |b' - b| ≤ eb) (h : eb < |b|)
    (hr : |r - 1 / b'| ≤ u * |1 / b'| + η) : |r - 1 / b| ≤ inverseError u η b eb :=
  roundingError_of hu (quotientError_of (by simp) hb h) hr

theorem quotientDerivError_nonneg {u η a ea b eb : ℝ} (hu : 0 ≤ u) (hη : 0 ≤ η) (ha : 0 ≤ ea) (hb : 0 ≤ eb)
    (h : squareError u η b eb < b ^ 2) : 0 ≤ quotientDerivError u η a ea b eb :=
  roundingError_nonneg hu hη (quotientError_nonneg ha (squareError_nonneg hu hη hb) (by rwa [abs_of_nonneg (sq_nonneg b)]))

theorem quotientDerivError_of {u η a a' ea b b2 eb r : ℝ} (hu : 0 ≤ u) (ha : |a' - a| ≤ ea)
    (hb : |b2 - b ^ 2| ≤ squareError u η b eb) (h : squareError u η b eb < b ^ 2)
    (hr : |r - -a' / b2| ≤ u * |-a' / b2| + η) : |r - -(a / b ^ 2)| ≤ quotientDerivError u η a ea b eb := by
  have h1 := quotientError_of (a := a) (a' := a') ha hb (by rwa [abs_of_nonneg (sq_nonneg b)])
  have h2 : |-a' / b2 - -(a / b ^ 2)| ≤ quotientError a ea (b ^ 2) (squareError u η b eb) := by
    have e : -a' / b2 - -(a / b ^ 2) = -(a' / b2 - a / b ^ 2) := by ring
    rwa [e, abs_neg]
  have := roundingError_of hu h2 hr
  unfold roundingError at this
  unfold quotientDerivError roundingError
  rwa [abs_neg] at this

/-! ### Sensitivities -/

namespace Sens

theorem add_zero (a : Sens) : a.add zero = a := by simp [add, zero]
theorem zero_add (a : Sens) : zero.add a = a := by simp [add, zero]
theorem smul_zero (c γ : ℝ) : zero.smul c γ = zero := by simp [smul, zero]
theorem smul_neg (a : Sens) (c γ : ℝ) : a.smul (-c) γ = a.smul c γ := by simp [smul]
theorem smul_one (a : Sens) : a.smul 1 0 = a := by simp [smul]
theorem smul_neg_one (a : Sens) : a.smul (-1) 0 = a := by rw [smul_neg, smul_one]

/-- `d` is a derivative whose sensitivity is `s`. -/
structure Bounds (s : Sens) (d : ℝ) : Prop where
  mag : |d| ≤ s.mag
  scale : 0 ≤ s.scale
  magErr : 0 ≤ s.magErr
  scaleErr : 0 ≤ s.scaleErr

theorem Bounds.mag_nonneg {s : Sens} {d : ℝ} (h : s.Bounds d) : 0 ≤ s.mag := (abs_nonneg _).trans h.mag

theorem Bounds.zero : Sens.zero.Bounds 0 := ⟨by simp [Sens.zero], le_rfl, le_rfl, le_rfl⟩

theorem Bounds.add {s t : Sens} {d e : ℝ} (hs : s.Bounds d) (ht : t.Bounds e) : (s.add t).Bounds (d + e) :=
  ⟨(abs_add_le _ _).trans (add_le_add hs.mag ht.mag), add_nonneg hs.scale ht.scale, add_nonneg hs.magErr ht.magErr,
    add_nonneg hs.scaleErr ht.scaleErr⟩

theorem Bounds.smul {s : Sens} {d : ℝ} (hs : s.Bounds d) (c : ℝ) {γ : ℝ} (hγ : 0 ≤ γ) : (s.smul c γ).Bounds (c * d) := by
  have h0 := hs.mag_nonneg
  have h1 := hs.scale
  have h2 := hs.magErr
  have h3 := hs.scaleErr
  have h4 : (0 : ℝ) ≤ max 1 |c| := zero_le_one.trans (le_max_left _ _)
  refine ⟨?_, ?_, ?_, ?_⟩
  · show |c * d| ≤ |c| * s.mag
    rw [abs_mul]
    exact mul_le_mul_of_nonneg_left hs.mag (abs_nonneg _)
  all_goals simp only [Sens.smul]; positivity

end Sens

/-! ### Formulas -/

namespace Formula

/-- The derivative, by the usual rules. -/
noncomputable def grad (n : VarId → ℝ) (v : VarId) : Formula → ℝ
  | var w => if w = v then 1 else 0
  | const _ => 0
  | pos a => a.grad n v
  | neg a => -a.grad n v
  | abs a => SignType.sign (a.eval n) * a.grad n v
  | add a b => a.grad n v + b.grad n v
  | sub a b => a.grad n v - b.grad n v
  | mul a b => b.eval n * a.grad n v + a.eval n * b.grad n v
  | div a b => 1 / b.eval n * a.grad n v + -(a.eval n / b.eval n ^ 2) * b.grad n v
  | fn1 s a => s.d (a.eval n) * a.grad n v
  | fn2 s a b => s.d0 (a.eval n) (b.eval n) * a.grad n v + s.d1 (a.eval n) (b.eval n) * b.grad n v

variable {u η : ℝ} (hu : 0 ≤ u) (hη : 0 ≤ η) {n : VarId → ℝ}

include hu hη in
theorem err_nonneg (φ : Formula) (h : φ.Safe u η n) : 0 ≤ φ.err u η n := by
  induction φ with
  | var v => exact le_rfl
  | const c => exact le_rfl
  | pos a ih => exact ih h
  | neg a ih => exact ih h
  | abs a ih => exact ih h.1
  | add a b iha ihb => exact roundingError_nonneg hu le_rfl (add_nonneg (iha h.1) (ihb h.2))
  | sub a b iha ihb => exact roundingError_nonneg hu le_rfl (add_nonneg (iha h.1) (ihb h.2))
  | mul a b iha ihb => exact roundingError_nonneg hu hη (productError_nonneg (iha h.1) (ihb h.2))
  | div a b iha ihb =>
    exact roundingError_nonneg hu hη (quotientError_nonneg (iha h.1) (ihb h.2.1) h.2.2.1)
  | fn1 s a ih => exact add_nonneg (mul_nonneg h.2.1.lip_nonneg (ih h.1)) h.2.1.acc_nonneg
  | fn2 s a b iha ihb =>
    exact add_nonneg (add_nonneg (mul_nonneg h.2.2.1.lip_nonneg.1 (iha h.1)) (mul_nonneg h.2.2.1.lip_nonneg.2 (ihb h.2.1)))
      h.2.2.1.acc_nonneg

include hu hη in
theorem hasDerivAt (φ : Formula) (h : φ.Safe u η n) (v : VarId) :
    HasDerivAt (fun t => φ.eval (Function.update n v t)) (φ.grad n v) (n v) := by
  have hn : Function.update n v (n v) = n := Function.update_eq_self v n
  induction φ with
  | var w =>
    simp only [eval, grad]
    by_cases hw : w = v
    · subst hw
      simp only [Function.update_self, if_true]
      exact hasDerivAt_id _
    · simp only [Function.update_of_ne hw, if_neg hw]
      exact hasDerivAt_const _ _
  | const c => exact hasDerivAt_const _ _
  | pos a ih => exact ih h
  | neg a ih => exact (ih h).neg
  | abs a ih =>
    have h0 : a.eval n ≠ 0 := abs_pos.1 ((a.err_nonneg hu hη h.1).trans_lt h.2)
    have h1 : HasDerivAt (fun x : ℝ => |x|) (SignType.sign (a.eval n) : ℝ) (a.eval (Function.update n v (n v))) := by
      rw [hn]
      exact hasDerivAt_abs h0
    exact h1.comp (n v) (ih h.1)
  | add a b iha ihb => exact (iha h.1).add (ihb h.2)
  | sub a b iha ihb => exact (iha h.1).sub (ihb h.2)
  | mul a b iha ihb =>
    have := (iha h.1).mul (ihb h.2)
    rw [hn] at this
    refine this.congr_deriv ?_
    simp only [grad]
    ring
  | div a b iha ihb =>
    have h0 : b.eval n ≠ 0 := abs_pos.1 ((b.err_nonneg hu hη h.2.1).trans_lt h.2.2.1)
    have := (iha h.1).div (ihb h.2.1) (by rwa [hn])
    rw [hn] at this
    refine this.congr_deriv ?_
    simp only [grad]
    field_simp
    ring
  | fn1 s a ih =>
    have h0 := h.2.1.deriv (a.eval n) (h.2.2 _ (by simpa using a.err_nonneg hu hη h.1))
    rw [← hn] at h0
    have := h0.comp (n v) (ih h.1)
    rw [hn] at this
    exact this
  | fn2 s a b iha ihb =>
    have h0 := h.2.2.1.deriv (a.eval n) (b.eval n) (h.2.2.2 _ _ (by simpa using a.err_nonneg hu hη h.1)
      (by simpa using b.err_nonneg hu hη h.2.1))
    have h1 : HasDerivAt (fun t => (a.eval (Function.update n v t), b.eval (Function.update n v t)))
        (a.grad n v, b.grad n v) (n v) := HasDerivAt.prodMk (iha h.1) (ihb h.2.1)
    have h2 := HasFDerivAt.comp_hasDerivAt (l := fun p : ℝ × ℝ => s.g p.1 p.2) (n v)
      (f := fun t => (a.eval (Function.update n v t), b.eval (Function.update n v t))) (by simp only [hn]; exact h0) h1
    refine h2.congr_deriv ?_
    simp [grad]

include hu hη in
theorem partialAt_eq (φ : Formula) (h : φ.Safe u η n) (v : VarId) : φ.partialAt n v = φ.grad n v :=
  (φ.hasDerivAt hu hη h v).deriv

end Formula

end Unc
