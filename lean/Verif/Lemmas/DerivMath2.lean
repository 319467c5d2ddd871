import Verif.Lemmas.DerivMath

/-
Derivatives of the functions of two variables of the `math` module, at the points where they exist.
-/

namespace Unc

set_option autoImplicit false

open Topology Filter NR

/-! ### `math.pow` -/

theorem mathPow_of_pow {x y z : ℝ} (h : powReal x y = .ok (.real (fin z))) :
    mathPowReal x y = .ok (fin z) := by
  unfold powReal at h
  unfold mathPowReal
  split at h
  · cases h; simp [*]
  · rename_i h0
    rw [if_neg h0]
    split at h
    · rename_i h1
      rw [if_pos h1]
      split at h
      · cases h
      · rename_i h2; cases h; rw [if_neg h2]
    · rename_i h1
      rw [if_neg h1]
      split at h
      · rename_i h2; cases h; rw [if_pos h2]
      · rename_i h2
        rw [if_neg h2]
        split at h
        · rename_i h3; cases h; rw [if_pos h3]
        · cases h

theorem pow_of_mathPow {x y z : ℝ} (h : mathPowReal x y = .ok (fin z)) :
    powReal x y = .ok (.real (fin z)) := by
  unfold mathPowReal at h
  unfold powReal
  split at h
  · cases h; simp [*]
  · rename_i h0
    rw [if_neg h0]
    split at h
    · rename_i h1
      rw [if_pos h1]
      split at h
      · cases h
      · rename_i h2; cases h; rw [if_neg h2]
    · rename_i h1
      rw [if_neg h1]
      split at h
      · rename_i h2; cases h; rw [if_pos h2]
      · rename_i h2
        rw [if_neg h2]
        split at h
        · rename_i h3; cases h; rw [if_pos h3]
        · cases h

theorem powReal_fin {x y : ℝ} {p : NR} (h : powReal x y = .ok (.real p)) : ∃ z, p = fin z := by
  unfold powReal at h
  repeat' split at h
  all_goals first | (cases h; exact ⟨_, rfl⟩) | cases h

theorem mathPowDeriv0_of {x y d : ℝ} (h : powDeriv0 (fin x) (fin y) = .ok (fin d)) :
    mathPowDeriv0 (fin x) (fin y) = .ok (fin d) := by
  unfold powDeriv0 at h
  unfold mathPowDeriv0
  split at h
  · rename_i h0; rw [if_pos h0]; exact h
  · rename_i h0
    rw [if_neg h0]
    simp only at h
    split at h
    · cases h
    · rename_i ht
      have ht' : (if !PyFloat.eqb (fin x) 0 then .ok true else do
          let m ← PyOps.mod (fin y) 1
          .ok (PyFloat.eqb m 0) : PyRes Bool) = .ok true := by
        refine Eq.trans ?_ ht; cases PyOps.mod (fin y) 1 <;> rfl
      rw [ht', ok_bind, if_pos rfl]
      have hs : (fin y - 1 : NR) = fin (y - 1) := rfl
      rw [hs] at h ⊢
      split at h
      · cases h
      · rename_i p hp
        obtain ⟨z, rfl⟩ := powReal_fin hp
        have hm : PyMath.fn2 .pow (fin x) (fin (y - 1)) = .ok (fin z) := mathPow_of_pow hp
        rw [hm, ok_bind]; exact h
      · cases h
    · rename_i ht
      have ht' : (if !PyFloat.eqb (fin x) 0 then .ok true else do
          let m ← PyOps.mod (fin y) 1
          .ok (PyFloat.eqb m 0) : PyRes Bool) = .ok false := by
        refine Eq.trans ?_ ht; cases PyOps.mod (fin y) 1 <;> rfl
      rw [ht', ok_bind]; exact h

theorem mathPowDeriv1_of {x y d : ℝ} (h : powDeriv1 (fin x) (fin y) = .ok (fin d)) :
    mathPowDeriv1 (fin x) (fin y) = .ok (fin d) := by
  unfold powDeriv1 at h
  unfold mathPowDeriv1
  split at h
  · rename_i h0; rw [if_pos h0]; exact h
  · rename_i h0
    rw [if_neg h0]
    split at h
    · cases h
    · rename_i l hl
      rw [hl, ok_bind]
      split at h
      · cases h
      · rename_i p hp
        obtain ⟨z, rfl⟩ := powReal_fin hp
        have hm : PyMath.fn2 .pow (fin x) (fin y) = .ok (fin z) := mathPow_of_pow hp
        rw [hm, ok_bind]; exact h
      · cases h

/-! ### `math.atan2` -/

theorem arg_eq_im (z : ℂ) : Complex.arg z = (Complex.log z).im := (Complex.log_im z).symm

theorem sq_sum_pos {x y : ℝ} (h : x ≠ 0 ∨ y ≠ 0) : 0 < x * x + y * y := by
  rcases h with h | h
  · nlinarith [mul_self_pos.mpr h, mul_self_nonneg y]
  · nlinarith [mul_self_pos.mpr h, mul_self_nonneg x]

theorem im_hasDerivAt {f : ℝ → ℂ} {f' : ℂ} {t : ℝ} (h : HasDerivAt f f' t) :
    HasDerivAt (fun s => (f s).im) f'.im t :=
  (Complex.imCLM.hasFDerivAt (x := f t)).comp_hasDerivAt t h

/-- Derivative with respect to the first argument of `atan2(y, x)`. -/
theorem atan2_hasDerivAt0 {y x : ℝ} (h : 0 < x ∨ y ≠ 0) :
    HasDerivAt (fun t => Complex.arg ⟨x, t⟩) (x / (x * x + y * y)) y := by
  have hs : (⟨x, y⟩ : ℂ) ∈ Complex.slitPlane := by
    rw [Complex.mem_slitPlane_iff]; exact h
  have h1 : HasDerivAt (fun t : ℝ => (x + t * Complex.I : ℂ)) (1 * Complex.I) y :=
    ((Complex.ofRealCLM.hasDerivAt (x := y)).mul_const Complex.I).const_add (x : ℂ)
  have e : ∀ t : ℝ, (x + t * Complex.I : ℂ) = ⟨x, t⟩ := fun t => (Complex.mk_eq_add_mul_I x t).symm
  have h2 := im_hasDerivAt (h1.clog_real (by rw [e]; exact hs))
  simp only [e, Complex.log_im] at h2
  refine h2.congr_deriv ?_
  rw [one_mul, Complex.div_im]
  simp [Complex.normSq_mk]

theorem atan2_hasDerivAt1 {y x : ℝ} (h : 0 < x ∨ y ≠ 0) :
    HasDerivAt (fun t => Complex.arg ⟨t, y⟩) (-y / (x * x + y * y)) x := by
  have hs : (⟨x, y⟩ : ℂ) ∈ Complex.slitPlane := by
    rw [Complex.mem_slitPlane_iff]; exact h
  have h1 : HasDerivAt (fun t : ℝ => (t + y * Complex.I : ℂ)) 1 x :=
    (Complex.ofRealCLM.hasDerivAt (x := x)).add_const (y * Complex.I : ℂ)
  have e : ∀ t : ℝ, (t + y * Complex.I : ℂ) = ⟨t, y⟩ := fun t => (Complex.mk_eq_add_mul_I t y).symm
  have h2 := im_hasDerivAt (h1.clog_real (by rw [e]; exact hs))
  simp only [e, Complex.log_im] at h2
  refine h2.congr_deriv ?_
  rw [Complex.div_im]
  simp [Complex.normSq_mk]
  ring

/-- A function that jumps has no derivative. -/
theorem no_jump {g : ℝ → ℝ} {x : ℝ} (h : ContinuousAt g x) {c : ℝ} (hc : 0 < c)
    (hj : ∀ ε > 0, ∃ t, |t - x| < ε ∧ c ≤ |g t - g x|) : False := by
  obtain ⟨δ, hδ, hb⟩ := Metric.continuousAt_iff.mp h c hc
  obtain ⟨t, h1, h2⟩ := hj δ hδ
  have := hb (x := t) (by rwa [Real.dist_eq])
  rw [Real.dist_eq] at this
  linarith

theorem atan2_smooth0 {y x : ℝ} (h : ContinuousAt (fun t => Complex.arg ⟨x, t⟩) y) : 0 < x ∨ y ≠ 0 := by
  by_contra hc
  push Not at hc
  obtain ⟨hx, rfl⟩ := hc
  refine no_jump h (c := Real.pi / 2) (by positivity) fun ε hε => ?_
  refine ⟨-(ε / 2), by rw [sub_zero, abs_neg, abs_of_pos (by linarith)]; linarith, ?_⟩
  have h0 : 0 ≤ Complex.arg ⟨x, 0⟩ := Complex.arg_nonneg_iff.mpr le_rfl
  have h1 : Complex.arg ⟨x, -(ε / 2)⟩ ≤ -(Real.pi / 2) := by
    by_contra hc
    push Not at hc
    have hneg : Complex.arg ⟨x, -(ε / 2)⟩ < 0 := Complex.arg_neg_iff.mpr (by simp; linarith)
    have : |Complex.arg ⟨x, -(ε / 2)⟩| < Real.pi / 2 := abs_lt.mpr ⟨hc, by linarith [Real.pi_pos]⟩
    rw [Complex.abs_arg_lt_pi_div_two_iff] at this
    rcases this with h | h
    · exact absurd h (not_lt.mpr hx)
    · have := congrArg Complex.im h
      simp at this; linarith
  have hp := Real.pi_pos
  show Real.pi / 2 ≤ |Complex.arg ⟨x, -(ε / 2)⟩ - Complex.arg ⟨x, 0⟩|
  rw [abs_of_nonpos (by linarith)]
  linarith

theorem atan2_smooth1 {y x : ℝ} (h : ContinuousAt (fun t => Complex.arg ⟨t, y⟩) x) : x ≠ 0 ∨ y ≠ 0 := by
  by_contra hc
  push Not at hc
  obtain ⟨rfl, rfl⟩ := hc
  refine no_jump h (c := Real.pi) Real.pi_pos fun ε hε => ?_
  refine ⟨-(ε / 2), by rw [sub_zero, abs_neg, abs_of_pos (by linarith)]; linarith, ?_⟩
  have h1 : Complex.arg ⟨-(ε / 2), 0⟩ = Real.pi := Complex.arg_eq_pi_iff.mpr ⟨by simp; linarith, rfl⟩
  have h0 : Complex.arg ⟨0, 0⟩ = 0 := Complex.arg_zero
  show Real.pi ≤ |Complex.arg ⟨-(ε / 2), 0⟩ - Complex.arg ⟨0, 0⟩|
  rw [h1, h0, sub_zero, abs_of_pos Real.pi_pos]

/-- The negative real axis: the argument is constant. -/
theorem atan2_hasDerivAt1' {y x : ℝ} (h : x ≠ 0 ∨ y ≠ 0) :
    HasDerivAt (fun t => Complex.arg ⟨t, y⟩) (-y / (x * x + y * y)) x := by
  by_cases hs : 0 < x ∨ y ≠ 0
  · exact atan2_hasDerivAt1 hs
  · push Not at hs
    obtain ⟨hx, rfl⟩ := hs
    have hx : x < 0 := lt_of_le_of_ne hx (by rcases h with h | h; exact h; exact absurd rfl h)
    rw [neg_zero, zero_div]
    refine (hasDerivAt_const x Real.pi).congr_of_eventuallyEq ?_
    filter_upwards [gt_mem_nhds hx] with t ht
    exact Complex.arg_eq_pi_iff.mpr ⟨ht, rfl⟩

/-! ### `math.hypot` -/

theorem hypot_hasDerivAt {x y : ℝ} (h : x ≠ 0 ∨ y ≠ 0) :
    HasDerivAt (fun t => Real.sqrt (t ^ 2 + y ^ 2)) (x / Real.sqrt (x ^ 2 + y ^ 2)) x := by
  have hp : x ^ 2 + y ^ 2 ≠ 0 := by
    have := sq_sum_pos h
    nlinarith
  have h1 : HasDerivAt (fun t : ℝ => t ^ 2 + y ^ 2) (2 * x) x := by
    have := (hasDerivAt_pow 2 x).add_const (y ^ 2)
    have e : ((2 : ℕ) : ℝ) * x ^ (2 - 1) = 2 * x := by simp
    rw [e] at this
    exact this
  refine (h1.sqrt hp).congr_deriv ?_
  rw [mul_div_mul_left _ _ (two_ne_zero)]

theorem hypot_smooth {x y d : ℝ} (h : HasDerivAt (fun t => Real.sqrt (t ^ 2 + y ^ 2)) d x) :
    x ≠ 0 ∨ y ≠ 0 := by
  by_contra hc
  push Not at hc
  obtain ⟨rfl, rfl⟩ := hc
  refine not_abs_zero (d := d) (h.congr_of_eventuallyEq (Eventually.of_forall fun t => ?_))
  simp [Real.sqrt_sq_eq_abs]

/-! ### Table -/

theorem fn2_fin (fn : MF2) (x y : ℝ) : PyMath.fn2 fn (fin x) (fin y) = mathReal2 fn x y := rfl

theorem MF2.deriv0_true {fn : MF2} (hfn : fn ≠ .fmod) {x y d : ℝ} {g : ℝ → ℝ}
    (he : ∀ᶠ t in 𝓝 x, mathReal2 fn t y = .ok (fin (g t))) (hd : HasDerivAt g d x) :
    ∃ D : NR → NR → PyRes NR, fn.deriv0 = some D ∧ D (fin x) (fin y) = .ok (fin d) := by
  cases fn with
  | atan2 =>
    refine ⟨_, rfl, ?_⟩
    have h := congr_deriv (φ := fun t => Complex.arg ⟨y, t⟩) hd (he.mono fun t ht => by
      simpa [mathReal2] using ht)
    have hs := atan2_smooth0 h.continuousAt
    have hp := sq_sum_pos (x := y) (y := x) (hs.imp (fun h => h.ne') _root_.id)
    simp only [nr_sq, ok_bind]
    rw [fin_add, nr_truediv hp.ne', h.unique (atan2_hasDerivAt0 hs)]
  | copysign =>
    refine ⟨_, rfl, ?_⟩
    have h := congr_deriv (φ := fun t => if 0 ≤ y then |t| else -|t|) hd (he.mono fun t ht => by
      simpa [mathReal2] using ht)
    by_cases hy : 0 ≤ y
    · simp only [hy, if_true] at h
      have hx : x ≠ 0 := by rintro rfl; exact not_abs_zero h
      rcases lt_or_gt_of_ne hx with hx | hx
      · rw [h.unique (hasDerivAt_abs_neg hx)]
        simp [derivCopysign, fn2_fin, mathReal2, hy, geb, PyFloat.ltb, PyFloat.eqb, not_lt.mpr hx.le, hx.ne, ok_bind]
      · rw [h.unique (hasDerivAt_abs_pos hx)]
        simp [derivCopysign, fn2_fin, mathReal2, hy, geb, PyFloat.ltb, PyFloat.eqb, hx, ok_bind]
    · simp only [hy, if_false] at h
      have hx : x ≠ 0 := by
        rintro rfl
        refine not_abs_zero (d := -d) (h.neg.congr_of_eventuallyEq (Eventually.of_forall fun t => ?_))
        simp
      rcases lt_or_gt_of_ne hx with hx | hx
      · rw [h.unique (hasDerivAt_abs_neg hx).neg]
        simp [derivCopysign, fn2_fin, mathReal2, hy, geb, PyFloat.ltb, PyFloat.eqb, not_lt.mpr hx.le, hx.ne, ok_bind]
      · rw [h.unique (hasDerivAt_abs_pos hx).neg]
        simp [derivCopysign, fn2_fin, mathReal2, hy, geb, PyFloat.ltb, PyFloat.eqb, hx, ok_bind]
  | fmod => exact absurd rfl hfn
  | hypot =>
    refine ⟨_, rfl, ?_⟩
    have h := congr_deriv (φ := fun t => Real.sqrt (t ^ 2 + y ^ 2)) hd (he.mono fun t ht => by
      simpa [mathReal2] using ht)
    have hs := hypot_smooth h
    have hp : 0 < x ^ 2 + y ^ 2 := by have := sq_sum_pos hs; nlinarith
    simp only [fn2_fin, mathReal2, ok_bind]
    rw [nr_truediv (Real.sqrt_pos.mpr hp).ne', h.unique (hypot_hasDerivAt hs)]
  | pow =>
    exact ⟨_, rfl, mathPowDeriv0_of (pow_deriv0_true (he.mono fun t ht => pow_of_mathPow ht) hd)⟩

theorem MF2.deriv1_true {fn : MF2} (hfn : fn ≠ .fmod) {x y d : ℝ} {g : ℝ → ℝ}
    (he : ∀ᶠ t in 𝓝 y, mathReal2 fn x t = .ok (fin (g t))) (hd : HasDerivAt g d y) :
    ∃ D : NR → NR → PyRes NR, fn.deriv1 = some D ∧ D (fin x) (fin y) = .ok (fin d) := by
  cases fn with
  | atan2 =>
    refine ⟨_, rfl, ?_⟩
    have h := congr_deriv (φ := fun t => Complex.arg ⟨t, x⟩) hd (he.mono fun t ht => by
      simpa [mathReal2] using ht)
    have hs := atan2_smooth1 h.continuousAt
    have hp := sq_sum_pos (x := y) (y := x) hs
    simp only [nr_sq, ok_bind]
    rw [fin_add, neg_fin, nr_truediv hp.ne', h.unique (atan2_hasDerivAt1' hs)]
  | copysign =>
    refine ⟨_, rfl, ?_⟩
    have h := congr_deriv (φ := fun t => if 0 ≤ t then |x| else -|x|) hd (he.mono fun t ht => by
      simpa [mathReal2] using ht)
    suffices d = 0 by rw [this]; rfl
    rcases lt_trichotomy y 0 with hy | rfl | hy
    · refine h.unique ((hasDerivAt_const y (-|x|)).congr_of_eventuallyEq ?_)
      filter_upwards [gt_mem_nhds hy] with t ht
      simp [not_le.mpr ht]
    · by_cases hx : x = 0
      · refine h.unique ((hasDerivAt_const 0 0).congr_of_eventuallyEq (Eventually.of_forall fun t => ?_))
        simp [hx]
      · exfalso
        refine no_jump h.continuousAt (c := |x|) (abs_pos.mpr hx) fun ε hε => ?_
        refine ⟨-(ε / 2), by rw [sub_zero, abs_neg, abs_of_pos (by linarith)]; linarith, ?_⟩
        have h1 : ¬ (0:ℝ) ≤ -(ε / 2) := by linarith
        simp only [h1, if_false, le_refl, if_true]
        have := abs_pos.mpr hx
        generalize |x| = a at this
        rw [abs_of_neg (by linarith)]; linarith
    · refine h.unique ((hasDerivAt_const y |x|).congr_of_eventuallyEq ?_)
      filter_upwards [lt_mem_nhds hy] with t ht
      simp [ht.le]
  | fmod => exact absurd rfl hfn
  | hypot =>
    refine ⟨_, rfl, ?_⟩
    have h := congr_deriv (φ := fun t => Real.sqrt (t ^ 2 + x ^ 2)) hd (he.mono fun t ht => by
      rw [add_comm]; simpa [mathReal2] using ht)
    have hs := hypot_smooth h
    have hp : 0 < y ^ 2 + x ^ 2 := by have := sq_sum_pos hs; nlinarith
    simp only [fn2_fin, mathReal2, ok_bind]
    rw [add_comm (x ^ 2), nr_truediv (Real.sqrt_pos.mpr hp).ne', h.unique (hypot_hasDerivAt hs)]
  | pow =>
    exact ⟨_, rfl, mathPowDeriv1_of (pow_deriv1_true (he.mono fun t ht => pow_of_mathPow ht) hd)⟩

/-! ### `math.log` -/

theorem log_ok {x z : ℝ} (h : PyOps.log (fin x) = .ok (fin z)) : 0 < x ∧ z = Real.log x := by
  simp only [PyOps.log] at h
  split at h
  · cases h
  · cases h; exact ⟨not_le.mp ‹_›, rfl⟩

theorem logb_ok {x b z : ℝ} (h : PyMath.logb (fin x) (fin b) = .ok (fin z)) :
    0 < x ∧ 0 < b ∧ b ≠ 1 ∧ z = Real.log x / Real.log b := by
  simp only [PyMath.logb] at h
  split at h
  · cases h
  · split at h
    · cases h
    · split at h
      · cases h
      · cases h; exact ⟨not_le.mp ‹_›, not_le.mp ‹_›, ‹_›, rfl⟩

theorem logb_eq {x b : ℝ} (hx : 0 < x) (hb : 0 < b) (h1 : b ≠ 1) :
    PyMath.logb (fin x) (fin b) = .ok (fin (Real.log x / Real.log b)) := by
  simp [PyMath.logb, not_le.mpr hx, not_le.mpr hb, h1]

theorem log_ne_zero' {b : ℝ} (hb : 0 < b) (h1 : b ≠ 1) : Real.log b ≠ 0 :=
  Real.log_ne_zero_of_pos_of_ne_one hb h1

theorem log_deriv_true {x d : ℝ} {g : ℝ → ℝ} (he : ∀ᶠ t in 𝓝 x, PyOps.log (fin t) = .ok (fin (g t)))
    (hd : HasDerivAt g d x) : logDer0 [.flt (fin x)] [] = .ok (fin d) := by
  have hx := (log_ok he.self_of_nhds).1
  have h := congr_deriv (φ := Real.log) hd (he.mono fun t ht => (log_ok ht).2.symm)
  rw [h.unique (Real.hasDerivAt_log hx.ne'), logDer0, one_eq, nr_truediv hx.ne', one_div]

theorem logb_deriv0_true {x b d : ℝ} {g : ℝ → ℝ}
    (he : ∀ᶠ t in 𝓝 x, PyMath.logb (fin t) (fin b) = .ok (fin (g t))) (hd : HasDerivAt g d x) :
    logDer0 [.flt (fin x), .flt (fin b)] [] = .ok (fin d) := by
  obtain ⟨hx, hb, h1, -⟩ := logb_ok he.self_of_nhds
  have h := congr_deriv (φ := fun t => Real.log t / Real.log b) hd (he.mono fun t ht => (logb_ok ht).2.2.2.symm)
  rw [h.unique ((Real.hasDerivAt_log hx.ne').div_const _), logDer0, one_eq, nr_truediv hx.ne', ok_bind,
    nr_log hb, ok_bind, nr_truediv (log_ne_zero' hb h1), one_div]

theorem logb_deriv1_true {x b d : ℝ} {g : ℝ → ℝ}
    (he : ∀ᶠ t in 𝓝 b, PyMath.logb (fin x) (fin t) = .ok (fin (g t))) (hd : HasDerivAt g d b) :
    logDer1 [.flt (fin x), .flt (fin b)] [] = .ok (fin d) := by
  obtain ⟨hx, hb, h1, -⟩ := logb_ok he.self_of_nhds
  have hl := log_ne_zero' hb h1
  have h := congr_deriv (φ := fun t => Real.log x / Real.log t) hd (he.mono fun t ht => (logb_ok ht).2.2.2.symm)
  have h2 := (hasDerivAt_const b (Real.log x)).div (Real.hasDerivAt_log hb.ne') hl
  rw [h.unique h2, logDer1, logb_eq hx hb h1, ok_bind, neg_fin, nr_truediv hb.ne', ok_bind, nr_log hb, ok_bind,
    nr_truediv hl]
  congr 2
  field_simp
  ring

end Unc
