import Mathlib.Analysis.SpecialFunctions.ExpDeriv
import Mathlib.Analysis.SpecialFunctions.Trigonometric.InverseDeriv
import Mathlib.Analysis.SpecialFunctions.Trigonometric.ArctanDeriv
import Mathlib.Analysis.SpecialFunctions.Trigonometric.DerivHyp
import Mathlib.Analysis.SpecialFunctions.Log.Deriv
import Mathlib.Analysis.SpecialFunctions.Sqrt
import Mathlib.Analysis.SpecialFunctions.Complex.LogDeriv
import Mathlib.MeasureTheory.Integral.IntervalIntegral.FundThmCalculus
import Verif.Py.NRMath
import Verif.Lemmas.DerivOps

/-
Derivatives of the functions of the `math` module, at the points where they exist.
-/

namespace Unc

set_option autoImplicit false

open Topology Filter NR

/-- Value of the functions of one variable (in their domains). -/
noncomputable def mathVal (fn : MF1) (x : ℝ) : ℝ :=
  match fn with
  | .acos => Real.arccos x
  | .acosh => Real.arcosh x
  | .asin => Real.arcsin x
  | .asinh => Real.arsinh x
  | .atan => Real.arctan x
  | .atanh => Real.artanh x
  | .cos => Real.cos x
  | .cosh => Real.cosh x
  | .degrees => x * 180 / Real.pi
  | .erf => erfReal x
  | .erfc => 1 - erfReal x
  | .exp => Real.exp x
  | .expm1 => Real.exp x - 1
  | .fabs => |x|
  | .gamma => Real.Gamma x
  | .lgamma => Real.log |Real.Gamma x|
  | .log10 => Real.log x / Real.log 10
  | .log1p => Real.log (1 + x)
  | .radians => x * Real.pi / 180
  | .sin => Real.sin x
  | .sinh => Real.sinh x
  | .sqrt => Real.sqrt x
  | .tan => Real.tan x
  | .tanh => Real.tanh x

/-- Points where the functions with an analytical derivative are differentiable. -/
def Smooth1 (fn : MF1) (x : ℝ) : Prop :=
  match fn with
  | .acos | .asin | .atanh => -1 < x ∧ x < 1
  | .acosh => 1 < x
  | .fabs => x ≠ 0
  | .gamma | .lgamma => False
  | .log10 | .sqrt => 0 < x
  | .log1p => -1 < x
  | .tan => Real.cos x ≠ 0
  | _ => True

theorem mathReal_val {fn : MF1} {x : ℝ} {z : NR} (h : mathReal fn x = .ok z) : z = fin (mathVal fn x) := by
  cases fn <;> simp only [mathReal, onDomain] at h <;> (try split at h) <;> cases h <;> rfl

theorem smooth1_ev {fn : MF1} {x : ℝ} (h : Smooth1 fn x) :
    ∀ᶠ t in 𝓝 x, mathReal fn t = .ok (fin (mathVal fn t)) := by
  cases fn <;> simp only [Smooth1] at h <;> simp only [mathReal, mathVal, onDomain]
  case acos | asin =>
    filter_upwards [lt_mem_nhds h.1, gt_mem_nhds h.2] with t h1 h2
    rw [if_pos ⟨h1.le, h2.le⟩]
  case atanh =>
    filter_upwards [lt_mem_nhds h.1, gt_mem_nhds h.2] with t h1 h2
    rw [if_pos ⟨h1, h2⟩]
  case acosh =>
    filter_upwards [lt_mem_nhds h] with t h1
    rw [if_pos h1.le]
  case log10 =>
    filter_upwards [lt_mem_nhds h] with t h1
    rw [if_pos h1]
  case log1p =>
    filter_upwards [lt_mem_nhds h] with t h1
    rw [if_pos h1]
  case sqrt =>
    filter_upwards [lt_mem_nhds h] with t h1
    rw [if_pos h1.le]
  all_goals first | exact Eventually.of_forall fun _ => rfl | exact Eventually.of_forall fun _ => trivial | exact h.elim

theorem erf_hasDerivAt (x : ℝ) :
    HasDerivAt erfReal (2 / Real.sqrt Real.pi * Real.exp (-x ^ 2)) x := by
  have hc : Continuous fun t : ℝ => Real.exp (-t ^ 2) := by fun_prop
  have := (hc.integral_hasStrictDerivAt 0 x).hasDerivAt
  exact this.const_mul _

theorem artanh_hasDerivAt {x : ℝ} (h1 : -1 < x) (h2 : x < 1) :
    HasDerivAt Real.artanh (1 / (1 - x ^ 2)) x := by
  have e : ∀ᶠ t in 𝓝 x, Real.artanh t = 1 / 2 * Real.log ((1 + t) / (1 - t)) := by
    filter_upwards [lt_mem_nhds h1, gt_mem_nhds h2] with t a b
    exact Real.artanh_eq_half_log ⟨a.le, b.le⟩
  have hp : (0:ℝ) < 1 + x := by linarith
  have hm : (0:ℝ) < 1 - x := by linarith
  have d1 := (((hasDerivAt_id x).const_add 1).div ((hasDerivAt_id x).const_sub 1) hm.ne').log
    (by simpa using (div_pos hp hm).ne')
  have d2 := d1.const_mul (1 / 2)
  have := d2.congr_of_eventuallyEq (f₁ := Real.artanh) e
  have h3 : (1 - x ^ 2) ≠ 0 := by nlinarith
  refine HasDerivAt.congr_deriv this ?_
  show 1 / 2 * ((1 * (1 - x) - (1 + x) * -1) / (1 - x) ^ 2 / ((1 + x) / (1 - x))) = 1 / (1 - x ^ 2)
  have h4 : (1 - x ^ 2) = (1 + x) * (1 - x) := by ring
  rw [h4]
  field_simp
  ring

theorem tanh_hasDerivAt (x : ℝ) : HasDerivAt Real.tanh (1 - Real.tanh x * Real.tanh x) x := by
  have hc := (Real.cosh_pos x).ne'
  have := (Real.hasDerivAt_sinh x).div (Real.hasDerivAt_cosh x) hc
  have e : Real.tanh = fun t => Real.sinh t / Real.cosh t := funext Real.tanh_eq_sinh_div_cosh
  have h2 := this.congr_of_eventuallyEq (f₁ := Real.tanh) (Eventually.of_forall fun t => congrFun e t)
  refine HasDerivAt.congr_deriv h2 ?_
  rw [Real.tanh_eq_sinh_div_cosh]
  field_simp

theorem nr_sq (x : ℝ) : PyFloat.sq (fin x) = .ok (fin (x * x)) := rfl
theorem nr_sqrt {x : ℝ} (h : 0 ≤ x) : PyFloat.sqrt (fin x) = .ok (fin (Real.sqrt x)) := by
  simp [PyFloat.sqrt, not_lt.mpr h]
theorem nr_truediv {x y : ℝ} (h : y ≠ 0) : PyFloat.truediv (fin x) (fin y) = .ok (fin (x / y)) := by
  simp [PyFloat.truediv, h]
theorem nr_log {x : ℝ} (h : 0 < x) : PyOps.log (fin x) = .ok (fin (Real.log x)) := by
  simp [PyOps.log, not_le.mpr h]

theorem ok_bind {α β : Type} (a : α) (f : α → PyRes β) : (Except.ok a >>= f : PyRes β) = f a := rfl

theorem log_ten_pos : 0 < Real.log 10 := Real.log_pos (by norm_num)

/-- At the points of `Smooth1`, the table of derivatives has the true derivative. -/
theorem smooth1_deriv {fn : MF1} {x : ℝ} (h : Smooth1 fn x) :
    ∃ (D : NR → PyRes NR) (d : ℝ), fn.deriv = some D ∧ D (fin x) = .ok (fin d) ∧
      HasDerivAt (mathVal fn) d x := by
  cases fn <;> simp only [Smooth1] at h
  case acos =>
    have hp : 0 < 1 - x * x := by nlinarith [h.1, h.2]
    refine ⟨_, _, rfl, ?_, Real.hasDerivAt_arccos h.1.ne' h.2.ne⟩
    simp only [nr_sq, ok_bind]
    rw [show (1 - fin (x * x) : NR) = fin (1 - x * x) from rfl, nr_sqrt hp.le, ok_bind,
      show (-1 : NR) = fin (-1) from rfl, nr_truediv (Real.sqrt_pos.mpr hp).ne', pow_two]
    congr 2; ring
  case asin =>
    have hp : 0 < 1 - x * x := by nlinarith [h.1, h.2]
    refine ⟨_, _, rfl, ?_, Real.hasDerivAt_arcsin h.1.ne' h.2.ne⟩
    simp only [nr_sq, ok_bind]
    rw [show (1 - fin (x * x) : NR) = fin (1 - x * x) from rfl, nr_sqrt hp.le, ok_bind,
      show (1 : NR) = fin 1 from rfl, nr_truediv (Real.sqrt_pos.mpr hp).ne', pow_two]
  case acosh =>
    have hp : 0 < x * x - 1 := by nlinarith
    refine ⟨_, _, rfl, ?_, Real.hasDerivAt_arcosh h⟩
    simp only [nr_sq, ok_bind]
    rw [show (fin (x * x) - 1 : NR) = fin (x * x - 1) from rfl, nr_sqrt hp.le, ok_bind,
      show (1 : NR) = fin 1 from rfl, nr_truediv (Real.sqrt_pos.mpr hp).ne', pow_two, one_div]
  case asinh =>
    have hp : 0 < 1 + x * x := by nlinarith
    refine ⟨_, _, rfl, ?_, Real.hasDerivAt_arsinh x⟩
    simp only [nr_sq, ok_bind]
    rw [show (1 + fin (x * x) : NR) = fin (1 + x * x) from rfl, nr_sqrt hp.le, ok_bind,
      show (1 : NR) = fin 1 from rfl, nr_truediv (Real.sqrt_pos.mpr hp).ne', pow_two, one_div]
  case atan =>
    have hp : 0 < 1 + x * x := by nlinarith
    refine ⟨_, _, rfl, ?_, Real.hasDerivAt_arctan x⟩
    simp only [nr_sq, ok_bind]
    rw [show (1 + fin (x * x) : NR) = fin (1 + x * x) from rfl,
      show (1 : NR) = fin 1 from rfl, nr_truediv hp.ne', pow_two]
  case atanh =>
    have hp : 0 < 1 - x * x := by nlinarith [h.1, h.2]
    refine ⟨_, _, rfl, ?_, artanh_hasDerivAt h.1 h.2⟩
    simp only [nr_sq, ok_bind]
    rw [show (1 - fin (x * x) : NR) = fin (1 - x * x) from rfl,
      show (1 : NR) = fin 1 from rfl, nr_truediv hp.ne', pow_two]
  case cos => exact ⟨_, _, rfl, rfl, Real.hasDerivAt_cos x⟩
  case cosh => exact ⟨_, _, rfl, rfl, Real.hasDerivAt_cosh x⟩
  case degrees =>
    have := ((hasDerivAt_id x).mul_const 180).div_const Real.pi
    exact ⟨_, _, rfl, rfl, this⟩
  case erf =>
    refine ⟨_, _, rfl, rfl, ?_⟩
    have := erf_hasDerivAt x
    rw [mul_comm, pow_two] at this
    exact this
  case erfc =>
    refine ⟨_, _, rfl, rfl, ?_⟩
    have := (erf_hasDerivAt x).const_sub 1
    rw [mul_comm, neg_mul_eq_neg_mul, pow_two] at this
    exact this
  case exp => exact ⟨_, _, rfl, rfl, Real.hasDerivAt_exp x⟩
  case expm1 => exact ⟨_, _, rfl, rfl, (Real.hasDerivAt_exp x).sub_const 1⟩
  case fabs =>
    rcases lt_or_gt_of_ne h with hx | hx
    · refine ⟨_, -1, rfl, ?_, hasDerivAt_abs_neg hx⟩
      simp [derivFabs, geb, PyFloat.ltb, PyFloat.eqb, not_lt.mpr hx.le, hx.ne]
    · refine ⟨_, 1, rfl, ?_, hasDerivAt_abs_pos hx⟩
      simp [derivFabs, geb, PyFloat.ltb, PyFloat.eqb, hx]
  case log10 =>
    refine ⟨_, _, rfl, ?_, (Real.hasDerivAt_log h.ne').div_const (Real.log 10)⟩
    rw [show (1 : NR) = fin 1 from rfl, nr_truediv h.ne', ok_bind,
      show (PyMath.ten : NR) = fin 10 from rfl, nr_log (by norm_num), ok_bind, nr_truediv log_ten_pos.ne',
      one_div]
  case log1p =>
    have hp : 0 < 1 + x := by linarith
    refine ⟨_, _, rfl, ?_, ((hasDerivAt_id x).const_add 1).log hp.ne'⟩
    rw [show (1 + fin x : NR) = fin (1 + x) from rfl, show (1 : NR) = fin 1 from rfl, nr_truediv hp.ne']
    rfl
  case radians =>
    have := ((hasDerivAt_id x).mul_const Real.pi).div_const 180
    exact ⟨_, _, rfl, rfl, this⟩
  case sin => exact ⟨_, _, rfl, rfl, Real.hasDerivAt_sin x⟩
  case sinh => exact ⟨_, _, rfl, rfl, Real.hasDerivAt_sinh x⟩
  case sqrt =>
    refine ⟨_, _, rfl, ?_, Real.hasDerivAt_sqrt h.ne'⟩
    rw [nr_sqrt h.le, ok_bind, show (PyMath.half : NR) = fin (1 / 2) from rfl,
      nr_truediv (Real.sqrt_pos.mpr h).ne']
    congr 2
    field_simp
  case tan =>
    refine ⟨_, _, rfl, rfl, ?_⟩
    refine HasDerivAt.congr_deriv (f := Real.tan) (Real.hasDerivAt_tan h) ?_
    rw [Real.tan_eq_sin_div_cos]
    field_simp
    rw [Real.cos_sq_add_sin_sq]
  case tanh => exact ⟨_, _, rfl, rfl, tanh_hasDerivAt x⟩

/-! Conversely, the functions are differentiable nowhere else. -/

theorem lt_of_ev_le {a x : ℝ} (h : ∀ᶠ t in 𝓝 x, a ≤ t) : a < x := by
  obtain ⟨ε, hε, hb⟩ := Metric.eventually_nhds_iff.mp h
  have := hb (y := x - ε / 2) (by
    rw [Real.dist_eq, sub_sub_cancel_left, abs_neg, abs_of_pos (by linarith)]; linarith)
  linarith

theorem lt_of_ev_ge {a x : ℝ} (h : ∀ᶠ t in 𝓝 x, t ≤ a) : x < a := by
  obtain ⟨ε, hε, hb⟩ := Metric.eventually_nhds_iff.mp h
  have := hb (y := x + ε / 2) (by
    rw [Real.dist_eq, add_sub_cancel_left, abs_of_pos (by linarith)]; linarith)
  linarith

theorem onDomain_ok {p : Prop} {y : ℝ} {z : NR} (h : onDomain p y = .ok z) : p := by
  unfold onDomain at h
  split at h
  · assumption
  · cases h

theorem mathVal_ev {fn : MF1} {x d : ℝ} {g : ℝ → ℝ}
    (he : ∀ᶠ t in 𝓝 x, mathReal fn t = .ok (fin (g t))) (hd : HasDerivAt g d x) :
    HasDerivAt (mathVal fn) d x :=
  congr_deriv hd (he.mono fun t ht => by
    have := mathReal_val ht
    injection this with this
    exact this.symm)

theorem not_abs_zero {d : ℝ} : ¬ HasDerivAt (fun t : ℝ => |t|) d 0 := fun h =>
  not_differentiableAt_abs_zero h.differentiableAt

theorem smooth1_of {fn : MF1} (hfn : fn ≠ .gamma ∧ fn ≠ .lgamma) {x d : ℝ} {g : ℝ → ℝ}
    (he : ∀ᶠ t in 𝓝 x, mathReal fn t = .ok (fin (g t))) (hd : HasDerivAt g d x) : Smooth1 fn x := by
  have hv := mathVal_ev he hd
  cases fn <;> simp only [Smooth1] <;> try trivial
  case acos => exact ⟨lt_of_ev_le (he.mono fun t ht => (onDomain_ok ht).1),
    lt_of_ev_ge (he.mono fun t ht => (onDomain_ok ht).2)⟩
  case asin => exact ⟨lt_of_ev_le (he.mono fun t ht => (onDomain_ok ht).1),
    lt_of_ev_ge (he.mono fun t ht => (onDomain_ok ht).2)⟩
  case atanh => exact onDomain_ok he.self_of_nhds
  case acosh => exact lt_of_ev_le (he.mono fun t ht => onDomain_ok ht)
  case fabs =>
    rintro rfl
    exact not_abs_zero hv
  case log10 => exact onDomain_ok he.self_of_nhds
  case sqrt => exact lt_of_ev_le (he.mono fun t ht => onDomain_ok ht)
  case log1p => exact onDomain_ok he.self_of_nhds
  case tan =>
    have : ContinuousAt Real.tan x := hv.continuousAt
    exact Real.continuousAt_tan.mp this

/-- The table has the true derivative, at every point where there is one. -/
theorem MF1.deriv_true {fn : MF1} (hfn : fn ≠ .gamma ∧ fn ≠ .lgamma) {x d : ℝ} {g : ℝ → ℝ}
    (he : ∀ᶠ t in 𝓝 x, mathReal fn t = .ok (fin (g t))) (hd : HasDerivAt g d x) :
    ∃ D : NR → PyRes NR, fn.deriv = some D ∧ D (fin x) = .ok (fin d) := by
  obtain ⟨D, d', h1, h2, h3⟩ := smooth1_deriv (smooth1_of hfn he hd)
  exact ⟨D, h1, by rw [h2, h3.unique (mathVal_ev he hd)]⟩

end Unc
