import Verif.Props.C84_Umath
import Verif.Py.NRRounded
import Mathlib.Analysis.SpecialFunctions.Pow.Deriv

/-
C84: powers. `x**c`, where `c` is a float, and `x**y` satisfy the hypotheses of the theorems on calculations, if the power of two
floats (and the logarithm, when the exponent has an uncertainty) is calculated accurately.
-/

namespace Unc

set_option autoImplicit false

/-! ### Mathematical functions -/

/-- The power `x**n`, for a natural number `n`, between `-b` and `b`. The power is calculated with the accuracy `ε`, and `x**(n-1)`
with the accuracy `ε'`. -/
noncomputable def npowSpec (u η : ℝ) (n : ℕ) (b ε ε' : ℝ) : FnSpec1 where
  g := fun x => x ^ n
  d := fun x => n * x ^ (n - 1)
  dom := fun x => |x| ≤ b
  lip := n * b ^ (n - 1)
  dlip := n * ((n - 1 : ℕ) * b ^ (n - 1 - 1))
  acc := ε
  dacc := n * ε' + u * (n * (b ^ (n - 1) + ε')) + η

theorem abs_le_convex (b : ℝ) : Convex ℝ {x : ℝ | |x| ≤ b} := by
  have : {x : ℝ | |x| ≤ b} = Set.Icc (-b) b := by
    ext x
    rw [Set.mem_setOf_eq, Set.mem_Icc, abs_le]
  rw [this]
  exact convex_Icc _ _

theorem npowSpec_smooth {u η b ε ε' : ℝ} {n : ℕ} (hu : 0 ≤ u) (hη : 0 ≤ η) (hb : 0 ≤ b) (hε : 0 ≤ ε) (hε' : 0 ≤ ε') :
    (npowSpec u η n b ε ε').Smooth := by
  have hpow : ∀ (k : ℕ) (x : ℝ), |x| ≤ b → |x ^ k| ≤ b ^ k := fun k x hx => by
    rw [abs_pow]
    exact pow_le_pow_left₀ (abs_nonneg _) hx k
  refine ⟨fun x _ => hasDerivAt_pow n x, fun x y hx hy => ?_, fun x y hx hy => ?_, ?_, ?_, hε, ?_⟩
  · refine lip_of_deriv (f := fun x => x ^ n) (f' := fun x => n * x ^ (n - 1)) (abs_le_convex b)
      (fun x _ => hasDerivAt_pow n x) (fun x hx => ?_) hx hy
    rw [abs_mul, Nat.abs_cast]
    exact mul_le_mul_of_nonneg_left (hpow _ x hx) (Nat.cast_nonneg n)
  · refine lip_of_deriv (f := fun x => n * x ^ (n - 1)) (f' := fun x => n * ((n - 1 : ℕ) * x ^ (n - 1 - 1))) (abs_le_convex b)
      (fun x _ => (hasDerivAt_pow (n - 1) x).const_mul _) (fun x hx => ?_) hx hy
    rw [abs_mul, abs_mul, Nat.abs_cast, Nat.abs_cast]
    exact mul_le_mul_of_nonneg_left (mul_le_mul_of_nonneg_left (hpow _ x hx) (Nat.cast_nonneg _)) (Nat.cast_nonneg n)
  · exact mul_nonneg (Nat.cast_nonneg _) (pow_nonneg hb _)
  · exact mul_nonneg (Nat.cast_nonneg _) (mul_nonneg (Nat.cast_nonneg _) (pow_nonneg hb _))
  · have : (0 : ℝ) ≤ n * ε' + u * (n * (b ^ (n - 1) + ε')) + η := by positivity
    exact this

/-- Bound on `x**y`, for `x` between `a` and `b` and `y` between `c` and `d`. -/
noncomputable def powBound (a b c d : ℝ) : ℝ := max (max (a ^ c) (a ^ d)) (max (b ^ c) (b ^ d))

theorem rpow_le_powBound {a b c d x y : ℝ} (ha : 0 < a) (hx : a ≤ x ∧ x ≤ b) (hy : c ≤ y ∧ y ≤ d) :
    x ^ y ≤ powBound a b c d := by
  have px : 0 < x := ha.trans_le hx.1
  have base : ∀ t : ℝ, x ^ t ≤ max (a ^ t) (b ^ t) := by
    intro t
    rcases le_total 0 t with ht | ht
    · exact (Real.rpow_le_rpow px.le hx.2 ht).trans (le_max_right _ _)
    · exact (Real.rpow_le_rpow_of_nonpos ha hx.1 ht).trans (le_max_left _ _)
  have expo : x ^ y ≤ max (x ^ c) (x ^ d) := by
    rcases le_total 1 x with h1 | h1
    · exact (Real.rpow_le_rpow_of_exponent_le h1 hy.2).trans (le_max_right _ _)
    · exact (Real.rpow_le_rpow_of_exponent_ge px h1 hy.1).trans (le_max_left _ _)
  refine expo.trans (max_le ((base c).trans ?_) ((base d).trans ?_))
  · exact max_le ((le_max_left _ _).trans (le_max_left _ _)) ((le_max_left _ _).trans (le_max_right _ _))
  · exact max_le ((le_max_right _ _).trans (le_max_left _ _)) ((le_max_right _ _).trans (le_max_right _ _))

theorem powBound_nonneg {a b c d : ℝ} (ha : 0 < a) : 0 ≤ powBound a b c d :=
  (Real.rpow_nonneg ha.le c).trans ((le_max_left _ _).trans (le_max_left _ _))

/-- The power `x**r`, for any real number `r`, between `a` and `b` (positive). -/
noncomputable def rpowSpec (u η r a b ε ε' : ℝ) : FnSpec1 where
  g := fun x => x ^ r
  d := fun x => r * x ^ (r - 1)
  dom := fun x => a ≤ x ∧ x ≤ b
  lip := |r| * powBound a b (r - 1) (r - 1)
  dlip := |r| * (|r - 1| * powBound a b (r - 1 - 1) (r - 1 - 1))
  acc := ε
  dacc := |r| * ε' + u * (|r| * (powBound a b (r - 1) (r - 1) + ε')) + η

theorem rpowSpec_smooth {u η r a b ε ε' : ℝ} (hu : 0 ≤ u) (hη : 0 ≤ η) (ha : 0 < a) (hε : 0 ≤ ε) (hε' : 0 ≤ ε') :
    (rpowSpec u η r a b ε ε').Smooth := by
  have hpow : ∀ (k x : ℝ), a ≤ x ∧ x ≤ b → |x ^ k| ≤ powBound a b k k := fun k x hx => by
    rw [abs_of_nonneg (Real.rpow_nonneg (ha.le.trans hx.1) k)]
    exact rpow_le_powBound ha hx ⟨le_rfl, le_rfl⟩
  have hd : ∀ k x : ℝ, a ≤ x → HasDerivAt (fun x : ℝ => x ^ k) (k * x ^ (k - 1)) x := fun k x hx =>
    Real.hasDerivAt_rpow_const (Or.inl (ha.trans_le hx).ne')
  refine ⟨fun x hx => hd r x hx.1, fun x y hx hy => ?_, fun x y hx hy => ?_, ?_, ?_, hε, ?_⟩
  · refine lip_of_deriv (f := fun x => x ^ r) (f' := fun x => r * x ^ (r - 1)) (convex_Icc a b)
      (fun x hx => hd r x hx.1) (fun x hx => ?_) hx hy
    rw [abs_mul]
    exact mul_le_mul_of_nonneg_left (hpow _ x hx) (abs_nonneg r)
  · refine lip_of_deriv (f := fun x => r * x ^ (r - 1)) (f' := fun x => r * ((r - 1) * x ^ (r - 1 - 1))) (convex_Icc a b)
      (fun x hx => (hd (r - 1) x hx.1).const_mul _) (fun x hx => ?_) hx hy
    rw [abs_mul, abs_mul]
    exact mul_le_mul_of_nonneg_left (mul_le_mul_of_nonneg_left (hpow _ x hx) (abs_nonneg _)) (abs_nonneg r)
  · exact mul_nonneg (abs_nonneg _) (powBound_nonneg ha)
  · exact mul_nonneg (abs_nonneg _) (mul_nonneg (abs_nonneg _) (powBound_nonneg ha))
  · have := powBound_nonneg (b := b) (c := r - 1) (d := r - 1) ha
    have : (0 : ℝ) ≤ |r| * ε' + u * (|r| * (powBound a b (r - 1) (r - 1) + ε')) + η := by positivity
    exact this

/-- Bound on the logarithm between `a` and `b`. -/
noncomputable def logBound (a b : ℝ) : ℝ := max |Real.log a| |Real.log b|

theorem log_le_logBound {a b x : ℝ} (ha : 0 < a) (hx : a ≤ x ∧ x ≤ b) : |Real.log x| ≤ logBound a b := by
  have px : 0 < x := ha.trans_le hx.1
  have h1 := Real.log_le_log ha hx.1
  have h2 := Real.log_le_log px hx.2
  refine abs_le.2 ⟨?_, h2.trans ((le_abs_self _).trans (le_max_right _ _))⟩
  have := neg_abs_le (Real.log a)
  have h3 : |Real.log a| ≤ logBound a b := le_max_left _ _
  linarith

/-- The power `x**y`, for `x` between `a` and `b` (positive) and `y` between `c` and `d`. The power is calculated with the accuracy
`ε`, `x**(y-1)` with the accuracy `ε'`, and the logarithm of `x` with the accuracy `δ`. -/
noncomputable def powSpec (u η a b c d ε ε' δ : ℝ) : FnSpec2 where
  g := fun x y => x ^ y
  d0 := fun x y => y * x ^ (y - 1)
  d1 := fun x y => Real.log x * x ^ y
  dom := fun x y => (a ≤ x ∧ x ≤ b) ∧ c ≤ y ∧ y ≤ d
  lip0 := max |c| |d| * powBound a b (c - 1) (d - 1)
  lip1 := logBound a b * powBound a b c d
  d0lip0 := max |c| |d| * (max |c - 1| |d - 1| * powBound a b (c - 1 - 1) (d - 1 - 1))
  d0lip1 := (1 + max |c| |d| * logBound a b) * powBound a b (c - 1) (d - 1)
  d1lip0 := (1 + max |c| |d| * logBound a b) * powBound a b (c - 1) (d - 1)
  d1lip1 := logBound a b * (logBound a b * powBound a b c d)
  acc := ε
  dacc0 := max |c| |d| * ε' + u * (max |c| |d| * (powBound a b (c - 1) (d - 1) + ε')) + η
  dacc1 := δ * (powBound a b c d + ε) + logBound a b * ε + u * ((logBound a b + δ) * (powBound a b c d + ε)) + η

theorem abs_le_max_of {c d y : ℝ} (h : c ≤ y ∧ y ≤ d) : |y| ≤ max |c| |d| := by
  refine abs_le.2 ⟨?_, h.2.trans ((le_abs_self _).trans (le_max_right _ _))⟩
  have := neg_abs_le c
  have h3 : |c| ≤ max |c| |d| := le_max_left _ _
  linarith [h.1]

/-- A function of two variables with bounded partial derivatives. -/
theorem lip_of_partials {f fx fy : ℝ → ℝ → ℝ} {s t : Set ℝ} (hs : Convex ℝ s) (ht : Convex ℝ t) {A B : ℝ}
    (h0 : ∀ x ∈ s, ∀ y ∈ t, HasDerivAt (fun x => f x y) (fx x y) x) (h1 : ∀ x ∈ s, ∀ y ∈ t, HasDerivAt (f x) (fy x y) y)
    (hA : ∀ x ∈ s, ∀ y ∈ t, |fx x y| ≤ A) (hB : ∀ x ∈ s, ∀ y ∈ t, |fy x y| ≤ B) {x x' y y' : ℝ} (hx : x ∈ s) (hx' : x' ∈ s)
    (hy : y ∈ t) (hy' : y' ∈ t) : |f x y - f x' y'| ≤ A * |x - x'| + B * |y - y'| := by
  have e : f x y - f x' y' = (f x y - f x' y) + (f x' y - f x' y') := by ring
  rw [e]
  refine (abs_add_le _ _).trans (add_le_add ?_ ?_)
  · exact lip_of_deriv (f := fun x => f x y) (f' := fun x => fx x y) hs (fun x hx => h0 x hx y hy) (fun x hx => hA x hx y hy) hx hx'
  · exact lip_of_deriv (f := f x') (f' := fy x') ht (fun y hy => h1 x' hx' y hy) (fun y hy => hB x' hx' y hy) hy hy'

theorem powSpec_smooth {u η a b c d ε ε' δ : ℝ} (hu : 0 ≤ u) (hη : 0 ≤ η) (ha : 0 < a) (hε : 0 ≤ ε) (hε' : 0 ≤ ε') (hδ : 0 ≤ δ) :
    (powSpec u η a b c d ε ε' δ).Smooth := by
  have hP : ∀ (k x y : ℝ), a ≤ x ∧ x ≤ b → c ≤ y ∧ y ≤ d → |x ^ (y - k)| ≤ powBound a b (c - k) (d - k) := fun k x y hx hy => by
    rw [abs_of_nonneg (Real.rpow_nonneg (ha.le.trans hx.1) _)]
    exact rpow_le_powBound ha hx ⟨by linarith [hy.1], by linarith [hy.2]⟩
  have hP0 : ∀ (x y : ℝ), a ≤ x ∧ x ≤ b → c ≤ y ∧ y ≤ d → |x ^ y| ≤ powBound a b c d := fun x y hx hy => by
    simpa using hP 0 x y hx hy
  have hL : ∀ x, a ≤ x ∧ x ≤ b → |Real.log x| ≤ logBound a b := fun x hx => log_le_logBound ha hx
  have hY : ∀ y, c ≤ y ∧ y ≤ d → |y| ≤ max |c| |d| := fun y hy => abs_le_max_of hy
  have hY1 : ∀ y, c ≤ y ∧ y ≤ d → |y - 1| ≤ max |c - 1| |d - 1| := fun y hy =>
    abs_le_max_of ⟨by linarith [hy.1], by linarith [hy.2]⟩
  have pP : ∀ c d, 0 ≤ powBound a b c d := fun c d => powBound_nonneg ha
  have pL : 0 ≤ logBound a b := (abs_nonneg _).trans (le_max_left _ _)
  have pY : 0 ≤ max |c| |d| := (abs_nonneg _).trans (le_max_left _ _)
  have pY1 : 0 ≤ max |c - 1| |d - 1| := (abs_nonneg _).trans (le_max_left _ _)
  have pos : ∀ x, a ≤ x ∧ x ≤ b → 0 < x := fun x hx => ha.trans_le hx.1
  have dx : ∀ k x : ℝ, a ≤ x ∧ x ≤ b → HasDerivAt (fun x : ℝ => x ^ k) (k * x ^ (k - 1)) x := fun k x hx =>
    Real.hasDerivAt_rpow_const (Or.inl (pos x hx).ne')
  have dy : ∀ x y : ℝ, a ≤ x ∧ x ≤ b → HasDerivAt (fun y : ℝ => x ^ y) (Real.log x * x ^ y) y := fun x y hx => by
    have := (Real.hasStrictDerivAt_const_rpow (pos x hx) y).hasDerivAt
    exact this.congr_deriv (by ring)
  have dy1 : ∀ x y : ℝ, a ≤ x ∧ x ≤ b → HasDerivAt (fun y : ℝ => x ^ (y - 1)) (Real.log x * x ^ (y - 1)) y := fun x y hx => by
    have := (dy x (y - 1) hx).comp y ((hasDerivAt_id y).sub_const 1)
    exact this.congr_deriv (by ring)
  have mixed : ∀ x y, a ≤ x ∧ x ≤ b → c ≤ y ∧ y ≤ d →
      |x ^ (y - 1) + y * (Real.log x * x ^ (y - 1))| ≤ (1 + max |c| |d| * logBound a b) * powBound a b (c - 1) (d - 1) := by
    intro x y hx hy
    have e : x ^ (y - 1) + y * (Real.log x * x ^ (y - 1)) = (1 + y * Real.log x) * x ^ (y - 1) := by ring
    rw [e, abs_mul]
    refine mul_le_mul ?_ (hP 1 x y hx hy) (abs_nonneg _) (by positivity)
    refine (abs_add_le _ _).trans ?_
    rw [abs_one, abs_mul]
    linarith [mul_le_mul (hY y hy) (hL x hx) (abs_nonneg _) pY]
  refine ⟨?_, ?_, ?_, ?_, ?_, ?_, ?_, hε, ?_⟩
  · intro x y hxy
    have := (Real.hasStrictFDerivAt_rpow_of_pos (x, y) (pos x hxy.1)).hasFDerivAt
    rw [mul_comm (((x, y) : ℝ × ℝ).1 ^ ((x, y) : ℝ × ℝ).2)] at this
    exact this
  · intro x y x' y' hxy hxy'
    refine lip_of_partials (f := fun x y => x ^ y) (fx := fun x y => y * x ^ (y - 1)) (fy := fun x y => Real.log x * x ^ y)
      (convex_Icc a b) (convex_Icc c d) (fun x hx y _ => dx y x hx) (fun x hx y _ => dy x y hx) ?_ ?_ hxy.1 hxy'.1 hxy.2 hxy'.2
    · intro x hx y hy
      rw [abs_mul]
      exact mul_le_mul (hY y hy) (hP 1 x y hx hy) (abs_nonneg _) pY
    · intro x hx y hy
      rw [abs_mul]
      exact mul_le_mul (hL x hx) (hP0 x y hx hy) (abs_nonneg _) pL
  · intro x y x' y' hxy hxy'
    refine lip_of_partials (f := fun x y => y * x ^ (y - 1)) (fx := fun x y => y * ((y - 1) * x ^ (y - 1 - 1)))
      (fy := fun x y => x ^ (y - 1) + y * (Real.log x * x ^ (y - 1)))
      (convex_Icc a b) (convex_Icc c d) (fun x hx y _ => (dx (y - 1) x hx).const_mul y) (fun x hx y _ => ?_) ?_ (fun x hx y hy => mixed x y hx hy)
      hxy.1 hxy'.1 hxy.2 hxy'.2
    · exact ((hasDerivAt_id y).mul (dy1 x y hx)).congr_deriv (by simp)
    · intro x hx y hy
      rw [abs_mul, abs_mul]
      refine mul_le_mul (hY y hy) (mul_le_mul (hY1 y hy) ?_ (abs_nonneg _) pY1) (by positivity) pY
      have := hP 2 x y hx hy
      have e : ∀ t : ℝ, t - 1 - 1 = t - 2 := fun t => by ring
      rw [e, e, e]
      exact this
  · intro x y x' y' hxy hxy'
    refine lip_of_partials (f := fun x y => Real.log x * x ^ y) (fx := fun x y => x ^ (y - 1) + y * (Real.log x * x ^ (y - 1)))
      (fy := fun x y => Real.log x * (Real.log x * x ^ y))
      (convex_Icc a b) (convex_Icc c d) (fun x hx y _ => ?_) (fun x hx y _ => (dy x y hx).const_mul _) (fun x hx y hy => mixed x y hx hy) ?_
      hxy.1 hxy'.1 hxy.2 hxy'.2
    · refine ((Real.hasDerivAt_log (pos x hx).ne').mul (dx y x hx)).congr_deriv ?_
      rw [Real.rpow_sub_one (pos x hx).ne']
      ring
    · intro x hx y hy
      rw [abs_mul, abs_mul]
      exact mul_le_mul (hL x hx) (mul_le_mul (hL x hx) (hP0 x y hx hy) (abs_nonneg _) pL) (by positivity) pL
  · exact ⟨mul_nonneg pY (pP _ _), mul_nonneg pL (pP _ _)⟩
  · exact ⟨mul_nonneg pY (mul_nonneg pY1 (pP _ _)), mul_nonneg (by positivity) (pP _ _)⟩
  · exact ⟨mul_nonneg (by positivity) (pP _ _), mul_nonneg pL (mul_nonneg pL (pP _ _))⟩
  · have p1 := pP c d
    have p2 := pP (c - 1) (d - 1)
    have q1 : 0 ≤ max |c| |d| * ε' + u * (max |c| |d| * (powBound a b (c - 1) (d - 1) + ε')) + η := by positivity
    have q2 : 0 ≤ δ * (powBound a b c d + ε) + logBound a b * ε + u * ((logBound a b + δ) * (powBound a b c d + ε)) + η := by
      positivity
    exact ⟨q1, q2⟩

/-! ### Programs -/

section
variable {F : Type} [PyMath F] [RoundedOps F]

local notation "𝓊" => (Rounded.u F)
local notation "𝒽" => (Rounded.η F)

/-- The derivative of `x**y` with respect to `x` is not a number, or it is 0 (when `y` is 0), or `y*x**(y-1)`. -/
theorem powDeriv0_fin {x y c : F} (h : BinOp.deriv0 .pow x y = .ok c) (hc : Rounded.Fin c) :
    (Rounded.val y = 0 ∧ Rounded.val c = 0) ∨ ∃ p, PyOps.pow x (y - 1) = .ok (.real p) ∧ c = y * p := by
  have hn : ∀ r : PyRes F, nanIfException r = .ok c → r = .ok c := by
    intro r hr
    cases r with
    | ok z => exact hr
    | error e => cases e <;> first | (cases hr; done) | (cases hr; exact absurd hc RoundedDiv.not_fin_nan)
  have h' := hn _ h
  unfold powDeriv0 at h'
  split at h'
  · rename_i h0
    cases h'
    exact Or.inl ⟨(Rounded.eqb_zero y h0).2, Rounded.val_zero⟩
  · right
    simp only at h'
    split at h'
    · cases h'
    · cases hp : PyOps.pow x (y - 1) with
      | error e => rw [hp] at h'; cases h'
      | ok r =>
        rw [hp] at h'
        cases r with
        | real p => cases h'; exact ⟨p, rfl, rfl⟩
        | complex => cases h'
    · cases h'
      exact absurd hc RoundedDiv.not_fin_nan

/-- The derivative of `x**y` with respect to `y` is not a number, or it is 0 (when `x` is 0), or `log(x)*x**y`. -/
theorem powDeriv1_fin {x y c : F} (h : BinOp.deriv1 .pow x y = .ok c) (hc : Rounded.Fin c) :
    (Rounded.val x = 0 ∧ Rounded.val c = 0) ∨ ∃ l p, PyOps.log x = .ok l ∧ PyOps.pow x y = .ok (.real p) ∧ c = l * p := by
  have hn : ∀ r : PyRes F, nanIfException r = .ok c → r = .ok c := by
    intro r hr
    cases r with
    | ok z => exact hr
    | error e => cases e <;> first | (cases hr; done) | (cases hr; exact absurd hc RoundedDiv.not_fin_nan)
  have h' := hn _ h
  unfold powDeriv1 at h'
  split at h'
  · rename_i h0
    cases h'
    rw [Bool.and_eq_true] at h0
    exact Or.inl ⟨(Rounded.eqb_zero x h0.1).2, Rounded.val_zero⟩
  · right
    cases hl : PyOps.log x with
    | error e => rw [hl] at h'; cases h'
    | ok l =>
      rw [hl] at h'
      simp only at h'
      cases hp : PyOps.pow x y with
      | error e => rw [hp] at h'; cases h'
      | ok r =>
        rw [hp] at h'
        cases r with
        | real p => cases h'; exact ⟨l, p, rfl, rfl, rfl⟩
        | complex => cases h'

theorem realPow_fin {x y z : F} (h : realPow x y = .ok (.flt z)) : PyOps.pow x y = .ok (.real z) := by
  unfold realPow at h
  cases hp : PyOps.pow x y with
  | error e => rw [hp] at h; cases h
  | ok r =>
    rw [hp] at h
    cases r with
    | real z => cases h; rfl
    | complex => cases h

/-- Error on a product. -/
theorem product_error {u η l p L P l' δ ε B D : ℝ} (hu : 0 ≤ u) (hl : |l - L| ≤ δ) (hp : |p - P| ≤ ε) (hL : |L| ≤ D) (hP : |P| ≤ B)
    (hm : |l' - l * p| ≤ u * |l * p| + η) :
    |l' - L * P| ≤ δ * (B + ε) + D * ε + u * ((D + δ) * (B + ε)) + η := by
  have hδ : 0 ≤ δ := (abs_nonneg _).trans hl
  have hε : 0 ≤ ε := (abs_nonneg _).trans hp
  have hD : 0 ≤ D := (abs_nonneg _).trans hL
  have al : |l| ≤ D + δ := by
    have : l = L + (l - L) := by ring
    rw [this]
    exact (abs_add_le _ _).trans (add_le_add hL hl)
  have ap : |p| ≤ B + ε := by
    have : p = P + (p - P) := by ring
    rw [this]
    exact (abs_add_le _ _).trans (add_le_add hP hp)
  have e : l' - L * P = (l' - l * p) + ((l - L) * p + L * (p - P)) := by ring
  rw [e]
  refine (abs_add_le _ _).trans ?_
  have i1 : |(l - L) * p + L * (p - P)| ≤ δ * (B + ε) + D * ε := by
    refine (abs_add_le _ _).trans ?_
    rw [abs_mul, abs_mul]
    exact add_le_add (mul_le_mul hl ap (abs_nonneg _) hδ) (mul_le_mul hL hp (abs_nonneg _) hD)
  have i2 : u * |l * p| ≤ u * ((D + δ) * (B + ε)) := by
    rw [abs_mul]
    exact mul_le_mul_of_nonneg_left (mul_le_mul al ap (abs_nonneg _) (by linarith)) hu
  linarith

/-- Powers with an exponent without uncertainty. -/
theorem powConst_implements (c : F) (hc : Rounded.Fin c) (s : FnSpec1) (h : ℝ → ℝ) (ε' B : ℝ)
    (hval : ∀ x y : F, Rounded.Fin x → s.dom (Rounded.val x) → PyOps.pow x c = .ok (.real y) → Rounded.Fin y →
      |Rounded.val y - s.g (Rounded.val x)| ≤ s.acc)
    (hpow : ∀ x p : F, Rounded.Fin x → s.dom (Rounded.val x) → PyOps.pow x (c - 1) = .ok (.real p) → Rounded.Fin p →
      |Rounded.val p - h (Rounded.val x)| ≤ ε')
    (hd : ∀ x, s.dom x → s.d x = Rounded.val c * h x) (hB : ∀ x, s.dom x → |h x| ≤ B) (hε' : 0 ≤ ε')
    (hdacc : s.dacc = |Rounded.val c| * ε' + 𝓊 * (|Rounded.val c| * (B + ε')) + 𝒽) :
    Implements1 (powConst c) s := by
  have hu : 0 ≤ 𝓊 := Rounded.u_nonneg
  have hη : 0 ≤ 𝒽 := Rounded.η_nonneg
  refine ⟨?_, ?_⟩
  · intro x y hx hdx hy hfy
    exact hval x y hx hdx (realPow_fin ((pow_func x c).symm.trans hy)) hfy
  · intro x d hx hdx hd' hfd
    have h0 : BinOp.deriv0 .pow x c = .ok d := hd'
    rw [hd _ hdx, hdacc]
    have hB0 : 0 ≤ B := (abs_nonneg _).trans (hB _ hdx)
    rcases powDeriv0_fin h0 hfd with ⟨z1, z2⟩ | ⟨p, hp, rfl⟩
    · rw [z1, z2]
      simp only [abs_zero, zero_mul, sub_self, mul_zero, add_zero, zero_add]
      exact hη
    · obtain ⟨-, f2, f3⟩ := Rounded.mul c p hfd
      have := product_error (L := Rounded.val c) (δ := 0) (D := |Rounded.val c|) hu (by simp) (hpow x p hx hdx hp f2) le_rfl
        (hB _ hdx) f3
      simpa using this

/-- **C84**: `x**n`, where `n` is a float which is a positive integer, satisfies the description of the power, on any interval, if
the powers of floats are accurate. -/
theorem C84_power_nat (n : ℕ) (c : F) (hc : Rounded.Fin c) (hn : Rounded.val c = n) {b ε ε' : ℝ} (hε' : 0 ≤ ε')
    (hpow : ∀ x y : F, Rounded.Fin x → |Rounded.val x| ≤ b → PyOps.pow x c = .ok (.real y) → Rounded.Fin y →
      |Rounded.val y - Rounded.val x ^ n| ≤ ε)
    (hpow' : ∀ x y : F, Rounded.Fin x → |Rounded.val x| ≤ b → PyOps.pow x (c - 1) = .ok (.real y) → Rounded.Fin y →
      |Rounded.val y - Rounded.val x ^ (n - 1)| ≤ ε') :
    Implements1 (powConst c) (npowSpec 𝓊 𝒽 n b ε ε') := by
  refine powConst_implements c hc _ (fun x => x ^ (n - 1)) ε' (b ^ (n - 1)) hpow hpow' (fun x _ => ?_) (fun x hx => ?_) hε' ?_
  · rw [hn]; rfl
  · rw [abs_pow]
    exact pow_le_pow_left₀ (abs_nonneg _) hx _
  · rw [hn, Nat.abs_cast]; rfl

/-- **C84**: `x**c`, where `c` is any float, satisfies the description of the power, on any interval of positive numbers, if the
powers of floats are accurate. -/
theorem C84_power_const (c : F) (hc : Rounded.Fin c) {a b ε ε' : ℝ} (ha : 0 < a) (hε' : 0 ≤ ε')
    (hpow : ∀ x y : F, Rounded.Fin x → a ≤ Rounded.val x ∧ Rounded.val x ≤ b → PyOps.pow x c = .ok (.real y) → Rounded.Fin y →
      |Rounded.val y - Rounded.val x ^ Rounded.val c| ≤ ε)
    (hpow' : ∀ x y : F, Rounded.Fin x → a ≤ Rounded.val x ∧ Rounded.val x ≤ b → PyOps.pow x (c - 1) = .ok (.real y) →
      Rounded.Fin y → |Rounded.val y - Rounded.val x ^ (Rounded.val c - 1)| ≤ ε') :
    Implements1 (powConst c) (rpowSpec 𝓊 𝒽 (Rounded.val c) a b ε ε') := by
  refine powConst_implements c hc _ (fun x => x ^ (Rounded.val c - 1)) ε' (powBound a b (Rounded.val c - 1) (Rounded.val c - 1))
    hpow hpow' (fun x _ => rfl) (fun x hx => ?_) hε' rfl
  rw [abs_of_nonneg (Real.rpow_nonneg (ha.le.trans hx.1) _)]
  exact rpow_le_powBound ha hx ⟨le_rfl, le_rfl⟩

/-- **C84**: `x**y`, when `y` has an uncertainty, satisfies the description of the power, on any interval of positive numbers, if
the powers and the logarithms of floats are accurate. -/
theorem C84_power {a b c d ε ε' δ : ℝ} (ha : 0 < a) (hε' : 0 ≤ ε')
    (hpow : ∀ x y z : F, Rounded.Fin x → Rounded.Fin y → a ≤ Rounded.val x ∧ Rounded.val x ≤ b →
      c ≤ Rounded.val y ∧ Rounded.val y ≤ d → PyOps.pow x y = .ok (.real z) → Rounded.Fin z →
      |Rounded.val z - Rounded.val x ^ Rounded.val y| ≤ ε)
    (hpow' : ∀ x y z : F, Rounded.Fin x → Rounded.Fin y → a ≤ Rounded.val x ∧ Rounded.val x ≤ b →
      c ≤ Rounded.val y ∧ Rounded.val y ≤ d → PyOps.pow x (y - 1) = .ok (.real z) → Rounded.Fin z →
      |Rounded.val z - Rounded.val x ^ (Rounded.val y - 1)| ≤ ε')
    (hlog : ∀ x z : F, Rounded.Fin x → a ≤ Rounded.val x ∧ Rounded.val x ≤ b → PyOps.log x = .ok z → Rounded.Fin z →
      |Rounded.val z - Real.log (Rounded.val x)| ≤ δ) :
    Implements2 (BinOp.wrapDef .pow : WrapDef F) (powSpec 𝓊 𝒽 a b c d ε ε' δ) := by
  have hu : 0 ≤ 𝓊 := Rounded.u_nonneg
  have hη : 0 ≤ 𝒽 := Rounded.η_nonneg
  have hP : ∀ (k x y : ℝ), a ≤ x ∧ x ≤ b → c ≤ y ∧ y ≤ d → |x ^ (y - k)| ≤ powBound a b (c - k) (d - k) := fun k x y hx hy => by
    rw [abs_of_nonneg (Real.rpow_nonneg (ha.le.trans hx.1) _)]
    exact rpow_le_powBound ha hx ⟨by linarith [hy.1], by linarith [hy.2]⟩
  refine ⟨?_, ?_, ?_⟩
  · intro x y z hx hy hd hz hfz
    exact hpow x y z hx hy hd.1 hd.2 (realPow_fin ((pow_func x y).symm.trans hz)) hfz
  · intro x y z hx hy hd hz hfz
    have h0 : BinOp.deriv0 .pow x y = .ok z := hz
    have pB : 0 ≤ powBound a b (c - 1) (d - 1) := powBound_nonneg ha
    have pY : 0 ≤ max |c| |d| := (abs_nonneg _).trans (le_max_left _ _)
    show |Rounded.val z - Rounded.val y * Rounded.val x ^ (Rounded.val y - 1)| ≤
      max |c| |d| * ε' + 𝓊 * (max |c| |d| * (powBound a b (c - 1) (d - 1) + ε')) + 𝒽
    rcases powDeriv0_fin h0 hfz with ⟨z1, z2⟩ | ⟨p, hp, rfl⟩
    · rw [z1, z2, zero_mul, sub_self, abs_zero]
      positivity
    · obtain ⟨-, f2, f3⟩ := Rounded.mul y p hfz
      have := product_error (L := Rounded.val y) (δ := 0) (D := max |c| |d|) hu (by simp) (hpow' x y p hx hy hd.1 hd.2 hp f2)
        (abs_le_max_of hd.2) (hP 1 _ _ hd.1 hd.2) f3
      simpa using this
  · intro x y z hx hy hd hz hfz
    have h0 : BinOp.deriv1 .pow x y = .ok z := hz
    rcases powDeriv1_fin h0 hfz with ⟨z1, -⟩ | ⟨l, p, hl, hp, rfl⟩
    · have := hd.1.1
      rw [z1] at this
      exact absurd this (not_le.2 ha)
    · obtain ⟨f1, f2, f3⟩ := Rounded.mul l p hfz
      have hP0 := hP 0 _ _ hd.1 hd.2
      simp only [sub_zero] at hP0
      exact product_error hu (hlog x l hx hd.1 hl f1) (hpow x y p hx hy hd.1 hd.2 hp f2) (log_le_logBound ha hd.1) hP0 f3

end

/-! ### Examples -/

section
attribute [local irreducible] B64.round

/-- On doubles, the powers with a natural exponent are correctly rounded. -/
theorem B64.pow_law (m : ℤ) (n : ℕ) {y : B64} (h : PyOps.pow (.fin m : B64) (.fin (n * 2 ^ 1074)) = .ok (.real y))
    (hy : Rounded.Fin y) :
    |Rounded.val y - Rounded.val (.fin m : B64) ^ n| ≤ Rounded.u B64 * |Rounded.val (.fin m : B64) ^ n| + Rounded.η B64 := by
  have hpos : (0 : ℤ) < 2 ^ 1074 := by positivity
  have h1 : 0 ≤ (n : ℤ) * 2 ^ 1074 ∧ (n : ℤ) * 2 ^ 1074 % 2 ^ 1074 = 0 := ⟨mul_nonneg (Int.natCast_nonneg n) hpos.le, Int.mul_emod_left _ _⟩
  have h2 : ((n : ℤ) * 2 ^ 1074 / 2 ^ 1074).toNat = n := by
    rw [Int.mul_ediv_cancel _ hpos.ne']
    exact Int.toNat_natCast n
  simp only [PyOps.pow] at h
  rw [if_pos h1, h2] at h
  obtain ⟨z, hz, rfl⟩ : ∃ z, checked (B64.round (m ^ n * 2 ^ 1074) (2 ^ (1074 * n))) = .ok z ∧ z = y := by
    cases hc : checked (B64.round (m ^ n * 2 ^ 1074) (2 ^ (1074 * n))) with
    | error e => rw [hc] at h; cases h
    | ok z => rw [hc] at h; cases h; exact ⟨_, rfl, rfl⟩
  have hz' : z = B64.round (m ^ n * 2 ^ 1074) (2 ^ (1074 * n)) := by
    generalize B64.round (m ^ n * 2 ^ 1074) (2 ^ (1074 * n)) = r at hz
    cases r <;> cases hz <;> rfl
  rw [hz'] at hy ⊢
  rw [B64.round_fin _ _ hy]
  have he := B64.rndInt_err (m ^ n * 2 ^ 1074) (2 ^ (1074 * n)) (Nat.two_pow_pos _)
  have hle : (if (2 : ℕ) ^ (1074 * n) = 1 then (0 : ℝ) else 1 / 2) ≤ 1 / 2 := by split <;> norm_num
  replace he := he.trans (add_le_add_right hle _)
  generalize B64.rndInt (m ^ n * 2 ^ 1074) (2 ^ (1074 * n)) = r at he
  show |(r : ℝ) * (2 : ℝ)⁻¹ ^ 1074 - ((m : ℝ) * (2 : ℝ)⁻¹ ^ 1074) ^ n| ≤
    (2 : ℝ)⁻¹ ^ 53 * |((m : ℝ) * (2 : ℝ)⁻¹ ^ 1074) ^ n| + (2 : ℝ)⁻¹ ^ 1075
  have hp : (0 : ℝ) < (2 : ℝ)⁻¹ ^ 1074 := by positivity
  have e1 : ((m : ℝ) * (2 : ℝ)⁻¹ ^ 1074) ^ n =
      ((m ^ n * 2 ^ 1074 : ℤ) : ℝ) / ((2 ^ (1074 * n) : ℕ) : ℝ) * (2 : ℝ)⁻¹ ^ 1074 := by
    generalize 1074 = N
    push_cast
    rw [mul_pow, ← pow_mul, inv_pow, inv_pow]
    have h2 : (2 : ℝ) ^ N ≠ 0 := by positivity
    field_simp
  have e3 : (2 : ℝ)⁻¹ ^ 1075 = 1 / 2 * (2 : ℝ)⁻¹ ^ 1074 := by
    rw [pow_succ]; ring
  rw [e1, e3, ← sub_mul, abs_mul, abs_mul, abs_of_pos hp, ← mul_assoc, ← add_mul]
  exact mul_le_mul_of_nonneg_right he hp.le

end

theorem B64.val_nat (n : ℕ) : Rounded.val (.fin (n * 2 ^ 1074) : B64) = n := by
  change ((n * 2 ^ 1074 : ℤ) : ℝ) * (2 : ℝ)⁻¹ ^ 1074 = n
  generalize 1074 = N
  push_cast
  rw [mul_assoc, ← mul_pow]
  norm_num

/-- Hypotheses of `C84_power_nat`: doubles. -/
theorem B64.pow_implements (n k : ℕ) (hk : n - 1 = k) {b : ℝ} (hb : 0 ≤ b)
    (h1 : (.fin (n * 2 ^ 1074) : B64) - 1 = .fin (k * 2 ^ 1074)) :
    Implements1 (powConst (.fin (n * 2 ^ 1074) : B64)) (npowSpec (Rounded.u B64) (Rounded.η B64) n b
      (Rounded.u B64 * b ^ n + Rounded.η B64) (Rounded.u B64 * b ^ (n - 1) + Rounded.η B64)) := by
  have hu : 0 ≤ Rounded.u B64 := Rounded.u_nonneg
  have hη : 0 ≤ Rounded.η B64 := Rounded.η_nonneg
  have key : ∀ (j : ℕ) (x y : B64), Rounded.Fin x → |Rounded.val x| ≤ b → PyOps.pow x (.fin (j * 2 ^ 1074)) = .ok (.real y) →
      Rounded.Fin y → |Rounded.val y - Rounded.val x ^ j| ≤ Rounded.u B64 * b ^ j + Rounded.η B64 := by
    intro j x y hx hxb hy hfy
    obtain ⟨m, rfl⟩ := (B64.fin_iff x).1 hx
    refine (B64.pow_law m j hy hfy).trans ?_
    have : |Rounded.val (.fin m : B64) ^ j| ≤ b ^ j := by
      rw [abs_pow]
      exact pow_le_pow_left₀ (abs_nonneg _) hxb j
    linarith [mul_le_mul_of_nonneg_left this hu]
  refine C84_power_nat n _ trivial (B64.val_nat n) (add_nonneg (mul_nonneg hu (pow_nonneg hb _)) hη) (key n) ?_
  rw [h1, hk]
  exact key k

/-- `x = ufloat(2, 0.5); y = x**3; z = y*x` -/
def exPow : List (Cmd B64) :=
  [.ufloat (.fin (2 ^ 1075)) (.fin (2 ^ 1073)) none, .binop .pow (.ref 0) (.const (.flt (.fin ((3 : ℕ) * 2 ^ 1074)))),
   .binop .mul (.ref 1) (.ref 0)]

/-- Description of `x**3` between -4 and 4. -/
noncomputable def exPowSpec : FnSpec1 := npowSpec (Rounded.u B64) (Rounded.η B64) 3 4
  (Rounded.u B64 * 4 ^ 3 + Rounded.η B64) (Rounded.u B64 * 4 ^ (3 - 1) + Rounded.η B64)

open Classical in
noncomputable def exPowSpecs : FnSpecs where
  one _ := none
  two _ := none
  powc c := if c = 3 then some exPowSpec else none

/-- `C84` applies to the calculation of `x**3*x`. -/
example : exPowSpecs.Right (fnsOf exPow) ∧ (∀ c ∈ exPow, c.IsCalc exPowSpecs) ∧
    (∀ (k : ℕ) (y : B64), sees exPow (.nominal (.ref k)) = .val (.flt y) → Rounded.Fin y) ∧
    ∃ φ, (formulas exPowSpecs exPow).env[2]? = some (some φ) ∧
      (∀ n, φ.eval n = n 0 ^ 3 * n 0) ∧
      φ.Safe (Rounded.u B64) (Rounded.η B64) (formulas exPowSpecs exPow).point ∧
      ∃ y, sees exPow (.stdDev (.ref 2)) = .val (.flt y) ∧ Rounded.Fin y := by
  have hu : 0 ≤ Rounded.u B64 := Rounded.u_nonneg
  have hη : 0 ≤ Rounded.η B64 := Rounded.η_nonneg
  have hbad : specBadStd (.fin (2 ^ 1073) : B64) = false := by decide +kernel
  have h3 : Rounded.val (.fin ((3 : ℕ) * 2 ^ 1074) : B64) = 3 := by rw [B64.val_nat]; norm_num
  have hpc : exPowSpecs.powc 3 = some exPowSpec := if_pos rfl
  refine ⟨⟨fun f s df h => (by cases h), fun f s df h => (by cases h), ?_, fun s h => (by cases h)⟩, ?_, ?_,
    .mul (.fn1 exPowSpec (.var 0)) (.var 0), ?_, fun n => rfl, ?_, ?_⟩
  · intro c s hc h
    have hc3 : Rounded.val c = 3 := by
      by_contra hne
      simp [exPowSpecs, hne] at h
    rw [hc3, hpc] at h
    cases h
    have : c = .fin ((3 : ℕ) * 2 ^ 1074) := by
      obtain ⟨m, rfl⟩ := (B64.fin_iff c).1 hc
      change (m : ℝ) * (2 : ℝ)⁻¹ ^ 1074 = 3 at hc3
      generalize 1074 = N at hc3 ⊢
      have : (m : ℝ) = 3 * 2 ^ N := by
        rw [← hc3, mul_assoc, ← mul_pow]
        norm_num
      refine congrArg B64.fin ?_
      have e : (m : ℝ) = (((3 : ℕ) * 2 ^ N : ℤ) : ℝ) := by rw [this]; push_cast; rfl
      exact Int.cast_injective e
    rw [this]
    exact B64.pow_implements 3 2 rfl (by norm_num) (by decide +kernel)
  · intro c hc
    simp only [exPow, List.mem_cons, List.not_mem_nil, or_false] at hc
    rcases hc with rfl | rfl | rfl
    · trivial
    · exact ⟨trivial, by rw [h3, hpc]; rfl⟩
    · exact ⟨by simp, trivial, trivial⟩
  · intro k y h
    by_cases hk : k < 3
    · have h1 : ((List.range 3).all fun k => (sees exPow (.nominal (.ref k))).isFinite) = true := by decide +kernel
      exact Out.isFinite_fin (List.all_eq_true.mp h1 k (List.mem_range.mpr hk)) h
    · have h1 : (after exPow).env.length = 3 := by decide +kernel
      have h2 : (after exPow).env[k]? = none := List.getElem?_eq_none (by omega)
      simp only [sees, Machine.step, Arg.eval, h2] at h
      cases h
  · simp only [formulas, exPow, FState.step, hbad, Arg.formula, FnSpecs.binop, BinOp.formula, List.foldl, h3]
    simp [FnSpecs.binop, FnSpecs.powFormula, BinOp.formula, hpc]
  · have hp : (formulas exPowSpecs exPow).point 0 = 2 := by
      have : (formulas exPowSpecs exPow).vars = [⟨.fin (2 ^ 1075), .fin (2 ^ 1073)⟩] := by
        simp [formulas, exPow, FState.step, hbad]
      simp only [FState.point, this, List.getElem?_cons_zero]
      change ((2 ^ 1075 : ℤ) : ℝ) * (2 : ℝ)⁻¹ ^ 1074 = 2
      rw [pow_succ]
      generalize 1074 = N
      push_cast
      rw [mul_right_comm, ← mul_pow]
      norm_num
    refine ⟨⟨trivial, npowSpec_smooth hu hη (by norm_num) (add_nonneg (mul_nonneg hu (by norm_num)) hη)
      (add_nonneg (mul_nonneg hu (by norm_num)) hη), ?_⟩, trivial⟩
    intro x hx
    simp only [Formula.eval, Formula.err, hp] at hx
    have : x = 2 := by linarith [abs_le.1 hx]
    subst this
    show |(2 : ℝ)| ≤ 4
    norm_num
  · have h1 : (sees exPow (.stdDev (.ref 2))).isFinite = true := by decide +kernel
    generalize sees exPow (.stdDev (.ref 2)) = o at h1
    unfold Out.isFinite at h1
    split at h1
    · exact ⟨_, rfl, trivial⟩
    · cases h1

/-- Powers of positive numbers, in exact arithmetic. -/
theorem NR.pow_exact {a b : ℝ} (ha : 0 < a) (x y z : NR) (hx : Rounded.Fin x) (hy : Rounded.Fin y)
    (hd : a ≤ Rounded.val x ∧ Rounded.val x ≤ b) (h : PyOps.pow x y = .ok (.real z)) :
    |Rounded.val z - Rounded.val x ^ Rounded.val y| ≤ 0 := by
  cases x with
  | nan => exact hx.elim
  | fin x =>
    cases y with
    | nan => exact hy.elim
    | fin y =>
      have px : 0 < x := ha.trans_le hd.1
      simp only [PyOps.pow, NR.powReal, px, px.ne', if_true, if_false] at h
      split at h
      · rename_i h0
        cases h
        simp [Rounded.val, NR.real, h0]
      · cases h
        simp [Rounded.val, NR.real]

/-- Hypotheses of `C84_power_const`: `x**0.5`. -/
example : Implements1 (powConst (.fin (1 / 2) : NR)) (rpowSpec (Rounded.u NR) (Rounded.η NR) (1 / 2) 1 4 0 0) ∧
    (rpowSpec (Rounded.u NR) (Rounded.η NR) (1 / 2) 1 4 0 0).Smooth :=
  ⟨C84_power_const (.fin (1 / 2) : NR) trivial one_pos le_rfl
    (fun x y hx hd h _ => NR.pow_exact one_pos x (.fin (1 / 2)) y hx trivial hd h)
    (fun x y hx hd h _ => NR.pow_exact one_pos x (.fin (1 / 2 - 1)) y hx trivial hd h),
   rpowSpec_smooth le_rfl le_rfl one_pos le_rfl le_rfl⟩

/-- Hypotheses of `C84_power`. -/
example : Implements2 (BinOp.wrapDef .pow : WrapDef NR) (powSpec (Rounded.u NR) (Rounded.η NR) 1 4 (-2) 2 0 0 0) ∧
    (powSpec (Rounded.u NR) (Rounded.η NR) 1 4 (-2) 2 0 0 0).Smooth := by
  refine ⟨C84_power one_pos le_rfl (fun x y z hx hy hd _ h _ => NR.pow_exact one_pos x y z hx hy hd h) ?_ ?_,
    powSpec_smooth le_rfl le_rfl one_pos le_rfl le_rfl le_rfl⟩
  · intro x y z hx hy hd _ h _
    cases y with
    | nan => exact hy.elim
    | fin y => exact NR.pow_exact one_pos x (.fin (y - 1)) z hx trivial hd h
  · intro x z hx hd h _
    cases x with
    | nan => exact hx.elim
    | fin x =>
      have hx2 : (1 : ℝ) ≤ x := hd.1
      have : ¬ x ≤ 0 := by linarith
      simp only [PyOps.log, this, if_false] at h
      cases h
      simp [Rounded.val, NR.real]

end Unc
