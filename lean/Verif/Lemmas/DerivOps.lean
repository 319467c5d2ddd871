import Mathlib.Analysis.SpecialFunctions.Pow.Deriv
import Mathlib.Analysis.Calculus.Deriv.ZPow
import Mathlib.Analysis.Calculus.Deriv.Inv
import Mathlib.Analysis.Calculus.Deriv.Abs
import Verif.Spec.Deriv

/-
Derivatives of the operators, at the points where they exist.
-/

namespace Unc

set_option autoImplicit false

open Topology Filter NR

/-- A differentiable function with integer values has a zero derivative. -/
theorem int_deriv_zero {k : ℝ → ℤ} {d x : ℝ} (h : HasDerivAt (fun t => (k t : ℝ)) d x) : d = 0 := by
  have hc : ContinuousAt (fun t => (k t : ℝ)) x := h.continuousAt
  have hev : ∀ᶠ t in 𝓝 x, (k t : ℝ) = (k x : ℝ) := by
    have := Metric.tendsto_nhds.mp hc 1 one_pos
    filter_upwards [this] with t ht
    rw [Real.dist_eq, ← Int.cast_sub, ← Int.cast_abs] at ht
    have h1 : |k t - k x| < 1 := by exact_mod_cast ht
    have h2 : k t - k x = 0 := Int.abs_lt_one_iff.mp h1
    have : k t = k x := by omega
    rw [this]
  exact h.unique ((hasDerivAt_const x ((k x : ℝ))).congr_of_eventuallyEq hev)

theorem abs_not_differentiable {d : ℝ} : ¬ HasDerivAt (fun t : ℝ => |t|) d 0 := fun h =>
  not_differentiableAt_abs_zero h.differentiableAt

theorem abs_deriv {x d : ℝ} (h : HasDerivAt (fun t : ℝ => |t|) d x) :
    x ≠ 0 ∧ d = if 0 ≤ x then 1 else -1 := by
  have hx : x ≠ 0 := by
    rintro rfl; exact abs_not_differentiable h
  refine ⟨hx, ?_⟩
  rcases lt_or_gt_of_ne hx with hx | hx
  · rw [if_neg (not_le.mpr hx)]; exact h.unique (hasDerivAt_abs_neg hx)
  · rw [if_pos hx.le]; exact h.unique (hasDerivAt_abs_pos hx)

/-- The function of a real variable given by `UnOp.onFloat` or `BinOp.onFloats`. -/
theorem congr_deriv {φ g : ℝ → ℝ} {d x : ℝ} (h : HasDerivAt g d x) (e : ∀ᶠ t in 𝓝 x, φ t = g t) :
    HasDerivAt φ d x := h.congr_of_eventuallyEq e

theorem UnOp.deriv_true (op : UnOp) {x d : ℝ} {g : ℝ → ℝ}
    (he : ∀ᶠ t in 𝓝 x, op.onFloat (fin t) = .ok (fin (g t))) (hd : HasDerivAt g d x) :
    op.deriv (fin x) = .ok (fin d) := by
  cases op with
  | abs =>
    have h := congr_deriv (φ := fun t => |t|) hd (he.mono fun t ht => by
      simpa [UnOp.onFloat, PyFloat.abs, lift1] using ht)
    obtain ⟨hx, rfl⟩ := abs_deriv h
    rcases lt_or_gt_of_ne hx with hx | hx
    · have : ¬ 0 ≤ x := not_le.mpr hx
      have h0 : ¬ 0 < x := fun h => this h.le
      simp [UnOp.deriv, geb, PyFloat.ltb, PyFloat.eqb, this, h0, hx.ne]
    · simp [UnOp.deriv, geb, PyFloat.ltb, PyFloat.eqb, hx, hx.le]
  | neg =>
    have h := congr_deriv (φ := fun t => -t) hd (he.mono fun t ht => by
      simpa [UnOp.onFloat] using ht)
    have := h.unique ((hasDerivAt_id x).neg)
    simp [UnOp.deriv, this]
  | pos =>
    have h := congr_deriv (φ := fun t => t) hd (he.mono fun t ht => by
      simpa [UnOp.onFloat] using ht)
    have := h.unique (hasDerivAt_id x)
    simp [UnOp.deriv, this]
  | trunc =>
    have h := congr_deriv (φ := fun t => ((if 0 ≤ t then ⌊t⌋ else ⌈t⌉ : ℤ) : ℝ)) hd
      (he.mono fun t ht => by
        have : truncReal t = g t := by simpa [UnOp.onFloat, PyOps.trunc] using ht
        rw [← this, truncReal]; split <;> rfl)
    have := int_deriv_zero h
    simp [UnOp.deriv, this]

theorem powReal_neg_int {x y z : ℝ} (hx : x < 0) (h : powReal x y = .ok (.real (fin z))) :
    y = ⌊y⌋ ∧ z = x ^ ⌊y⌋ := by
  unfold powReal at h
  split at h
  · rename_i h0
    subst h0
    simp at h ⊢
    exact h.symm
  · rw [if_neg hx.ne, if_neg (not_lt.mpr hx.le)] at h
    split at h
    · rename_i h1
      simp at h
      exact ⟨h1, h.symm⟩
    · cases h

/-- Powers as they are used by the derivatives. -/
theorem pow_pos_eq {x y : ℝ} (hx : 0 < x) : PyOps.pow (fin x) (fin y) = .ok (.real (fin (x ^ y))) := by
  simp only [PyOps.pow, powReal]
  split
  · rename_i h; subst h; simp
  · simp [hx.ne', hx]

theorem pow_int_eq {x : ℝ} (hx : x ≠ 0) (n : ℤ) :
    PyOps.pow (fin x) (fin n) = .ok (.real (fin (x ^ n))) := by
  rcases lt_or_gt_of_ne hx with h | h
  · simp only [PyOps.pow, powReal]
    split
    · rename_i h0
      have : n = 0 := by exact_mod_cast h0
      subst this; simp
    · simp [hx, not_lt.mpr h.le]
  · rw [pow_pos_eq h, Real.rpow_intCast]

theorem pow_zero_nonneg {n : ℤ} (hn : 0 ≤ n) :
    PyOps.pow (fin 0) (fin n) = .ok (.real (fin ((0:ℝ) ^ n))) := by
  simp only [PyOps.pow, powReal]
  split
  · rename_i h0
    have : n = 0 := by exact_mod_cast h0
    subst this; simp
  · rename_i h0
    have h0' : n ≠ 0 := by exact_mod_cast h0
    have h1 : ¬ ((n : ℝ) < 0) := by exact_mod_cast not_lt.mpr hn
    simp [zero_zpow _ h0', h1]

theorem powDeriv0_int {x : ℝ} {n : ℤ} (hn : n ≠ 0) (h : x ≠ 0 ∨ 0 ≤ n) :
    powDeriv0 (fin x) (fin n) = .ok (fin (n * x ^ (n - 1))) := by
  have hn' : (n : ℝ) ≠ 0 := by exact_mod_cast hn
  have hsub : (fin (n:ℝ) - 1 : NR) = fin ((n - 1 : ℤ) : ℝ) := by
    change fin (n:ℝ) - fin 1 = _
    rw [fin_sub]; push_cast; rfl
  unfold powDeriv0
  by_cases hx : x = 0
  · subst hx
    have h1 : 0 ≤ n - 1 := by
      rcases h with h | h
      · exact absurd rfl h
      · omega
    have hp := pow_zero_nonneg h1
    rw [hsub]
    simp only [hp]
    simp [PyFloat.eqb, hn', PyOps.mod]
  · have hp := pow_int_eq hx (n - 1)
    rw [hsub]
    simp only [hp]
    simp [PyFloat.eqb, hn', hx]

theorem powDeriv0_pos {x y : ℝ} (hx : 0 < x) :
    powDeriv0 (fin x) (fin y) = .ok (fin (y * x ^ (y - 1))) := by
  unfold powDeriv0
  by_cases hy : y = 0
  · subst hy; simp [PyFloat.eqb]
  · have hsub : (fin y - 1 : NR) = fin (y - 1) := rfl
    rw [hsub]
    simp only [pow_pos_eq hx]
    simp [PyFloat.eqb, hx.ne', hy]

theorem powDeriv0_zero {x : ℝ} : powDeriv0 (fin x) (fin 0) = .ok (fin 0) := by
  simp [powDeriv0, PyFloat.eqb]

theorem powDeriv1_pos {x y : ℝ} (hx : 0 < x) :
    powDeriv1 (fin x) (fin y) = .ok (fin (Real.log x * x ^ y)) := by
  unfold powDeriv1
  rw [pow_pos_eq hx]
  simp [PyFloat.eqb, hx.ne', PyOps.log, not_le.mpr hx]

theorem powDeriv1_zero {y : ℝ} (hy : 0 < y) : powDeriv1 (fin 0) (fin y) = .ok (fin 0) := by
  simp [powDeriv1, PyFloat.eqb, PyFloat.ltb, hy]

/-- Power of a real number, where it is defined, near a point of the domain. -/
theorem pow_deriv0_true {x y d : ℝ} {g : ℝ → ℝ}
    (he : ∀ᶠ t in 𝓝 x, powReal t y = .ok (.real (fin (g t)))) (hd : HasDerivAt g d x) :
    powDeriv0 (fin x) (fin y) = .ok (fin d) := by
  by_cases hy : y = 0
  · subst hy
    have h := congr_deriv (φ := fun _ => 1) hd (he.mono fun t ht => by
      simpa [powReal] using ht)
    rw [h.unique (hasDerivAt_const x 1)]
    exact powDeriv0_zero
  rcases lt_trichotomy x 0 with hx | hx | hx
  · have hint : y = ⌊y⌋ := (powReal_neg_int hx he.self_of_nhds).1
    have h := congr_deriv (φ := fun t => t ^ ⌊y⌋) hd (by
      filter_upwards [he, eventually_lt_nhds hx] with t ht hlt
      exact (powReal_neg_int hlt ht).2.symm)
    rw [h.unique (hasDerivAt_zpow ⌊y⌋ x (Or.inl hx.ne))]
    have h0 : ⌊y⌋ ≠ 0 := by
      intro h0; rw [h0] at hint; exact hy (by simpa using hint)
    have := powDeriv0_int (x := x) h0 (Or.inl hx.ne)
    rw [← hint] at this
    rw [this, ← hint]
  · subst hx
    have h00 := he.self_of_nhds
    have hy0 : 0 < y := by
      rcases lt_or_gt_of_ne hy with h | h
      · simp [powReal, hy, h] at h00
      · exact h
    obtain ⟨t, hpt, ht⟩ : ∃ t, powReal t y = .ok (.real (fin (g t))) ∧ t < 0 := by
      obtain ⟨ε, hε, hb⟩ := Metric.eventually_nhds_iff.mp he
      refine ⟨-(ε / 2), hb ?_, by linarith⟩
      rw [Real.dist_eq, sub_zero, abs_neg, abs_of_pos (by linarith)]; linarith
    have hint : y = ⌊y⌋ := (powReal_neg_int ht hpt).1
    have hn : 0 < ⌊y⌋ := by
      have : (0:ℝ) < (⌊y⌋ : ℝ) := hint ▸ hy0
      exact_mod_cast this
    have h := congr_deriv (φ := fun t => t ^ ⌊y⌋) hd (by
      filter_upwards [he] with t ht
      rcases lt_trichotomy t 0 with h | h | h
      · exact (powReal_neg_int h ht).2.symm
      · subst h
        simp [powReal, hy, not_lt.mpr hy0.le] at ht
        rw [← ht, zero_zpow _ hn.ne']
      · simp only [powReal, hy, h.ne', h, if_true, if_false] at ht
        simp at ht
        rw [← ht]
        conv_rhs => rw [hint]
        rw [Real.rpow_intCast])
    rw [h.unique (hasDerivAt_zpow ⌊y⌋ 0 (Or.inr hn.le))]
    have := powDeriv0_int (x := 0) hn.ne' (Or.inr hn.le)
    rw [← hint] at this
    rw [this, ← hint]
  · have h := congr_deriv (φ := fun t => t ^ y) hd (by
      filter_upwards [he, eventually_gt_nhds hx] with t ht hlt
      simp only [powReal, hy, hlt.ne', hlt, if_true, if_false] at ht
      simpa using ht)
    rw [h.unique (Real.hasDerivAt_rpow_const (Or.inl hx.ne'))]
    exact powDeriv0_pos hx

theorem pow_deriv1_true {x y d : ℝ} {g : ℝ → ℝ}
    (he : ∀ᶠ t in 𝓝 y, powReal x t = .ok (.real (fin (g t)))) (hd : HasDerivAt g d y) :
    powDeriv1 (fin x) (fin y) = .ok (fin d) := by
  rcases lt_trichotomy x 0 with hx | hx | hx
  · exfalso
    have hall : ∀ᶠ t in 𝓝 y, t = (⌊t⌋ : ℝ) := he.mono fun t ht => (powReal_neg_int hx ht).1
    have h : HasDerivAt (fun t : ℝ => ((⌊t⌋ : ℤ) : ℝ)) 1 y :=
      (hasDerivAt_id y).congr_of_eventuallyEq (hall.mono fun t ht => ht.symm)
    exact one_ne_zero (int_deriv_zero h)
  · subst hx
    have hy : 0 < y := by
      by_contra hy
      obtain ⟨ε, hε, hb⟩ := Metric.eventually_nhds_iff.mp he
      have hlt : y - ε / 2 < 0 := by linarith
      have := hb (y := y - ε / 2) (by
        rw [Real.dist_eq, sub_sub_cancel_left, abs_neg, abs_of_pos (by linarith)]; linarith)
      simp [powReal, hlt.ne, hlt] at this
    have h := congr_deriv (φ := fun _ => 0) hd (by
      filter_upwards [he, eventually_gt_nhds hy] with t ht hlt
      simpa [powReal, hlt.ne', not_lt.mpr hlt.le] using ht)
    rw [h.unique (hasDerivAt_const y 0)]
    exact powDeriv1_zero hy
  · have h := congr_deriv (φ := fun t => x ^ t) hd (by
      filter_upwards [he] with t ht
      have h1 := pow_pos_eq (y := t) hx
      simp only [PyOps.pow] at h1
      rw [h1] at ht
      simpa using ht)
    rw [h.unique (Real.hasStrictDerivAt_const_rpow hx y).hasDerivAt, mul_comm]
    exact powDeriv1_pos hx

theorem BinOp.onFloats_pow {x y z : ℝ} (h : BinOp.onFloats .pow (fin x) (fin y) = .ok (.flt (fin z))) :
    powReal x y = .ok (.real (fin z)) := by
  simp only [BinOp.onFloats, PyOps.pow] at h
  split at h
  · cases h
  · rename_i w hw
    cases h; exact hw
  · cases h

theorem BinOp.deriv0_true (op : BinOp) {x y d : ℝ} {g : ℝ → ℝ}
    (he : ∀ᶠ t in 𝓝 x, op.onFloats (fin t) (fin y) = .ok (.flt (fin (g t)))) (hd : HasDerivAt g d x) :
    op.deriv0 (fin x) (fin y) = .ok (fin d) := by
  have hy : op = .truediv ∨ op = .floordiv ∨ op = .mod → y ≠ 0 := by
    rintro h rfl
    have := he.self_of_nhds
    rcases h with rfl | rfl | rfl <;>
      simp [BinOp.onFloats, PyFloat.truediv, PyOps.floordiv, PyOps.mod, Except.map] at this
  cases op with
  | add =>
    have h := congr_deriv (φ := fun t => t + y) hd (he.mono fun t ht => by
      simpa [BinOp.onFloats] using ht)
    rw [h.unique ((hasDerivAt_id x).add_const y)]; rfl
  | sub =>
    have h := congr_deriv (φ := fun t => t - y) hd (he.mono fun t ht => by
      simpa [BinOp.onFloats] using ht)
    rw [h.unique ((hasDerivAt_id x).sub_const y)]; rfl
  | mul =>
    have h := congr_deriv (φ := fun t => t * y) hd (he.mono fun t ht => by
      simpa [BinOp.onFloats] using ht)
    rw [h.unique ((hasDerivAt_id x).mul_const y), one_mul]; rfl
  | truediv =>
    have hy := hy (by simp)
    have h := congr_deriv (φ := fun t => t / y) hd (he.mono fun t ht => by
      simpa [BinOp.onFloats, PyFloat.truediv, hy, Except.map] using ht)
    rw [h.unique ((hasDerivAt_id x).div_const y)]
    simp [BinOp.deriv0, PyFloat.truediv, hy]
  | floordiv =>
    have hy := hy (by simp)
    have h := congr_deriv (φ := fun t => ((⌊t / y⌋ : ℤ) : ℝ)) hd (he.mono fun t ht => by
      simpa [BinOp.onFloats, PyOps.floordiv, hy, Except.map] using ht)
    rw [int_deriv_zero h]; rfl
  | mod =>
    have hy := hy (by simp)
    have h := congr_deriv (φ := fun t => t - y * ((⌊t / y⌋ : ℤ) : ℝ)) hd (he.mono fun t ht => by
      simpa [BinOp.onFloats, PyOps.mod, hy, Except.map] using ht)
    have h2 : HasDerivAt (fun t => ((⌊t / y⌋ : ℤ) : ℝ)) ((1 - d) / y) x := by
      refine (((hasDerivAt_id x).sub h).div_const y).congr_of_eventuallyEq (Eventually.of_forall ?_)
      intro t
      change _ = (t - (t - y * ((⌊t / y⌋ : ℤ) : ℝ))) / y
      field_simp
      ring
    have h3 := int_deriv_zero h2
    rw [div_eq_zero_iff] at h3
    have : d = 1 := by rcases h3 with h3 | h3 <;> [linarith; exact absurd h3 hy]
    rw [this]; rfl
  | pow =>
    rw [BinOp.deriv0, pow_deriv0_true (he.mono fun t ht => BinOp.onFloats_pow ht) hd]; rfl

theorem BinOp.deriv1_true (op : BinOp) (hop : op ≠ .mod) {x y d : ℝ} {g : ℝ → ℝ}
    (he : ∀ᶠ t in 𝓝 y, op.onFloats (fin x) (fin t) = .ok (.flt (fin (g t)))) (hd : HasDerivAt g d y) :
    op.deriv1 (fin x) (fin y) = .ok (fin d) := by
  have hy : op = .truediv ∨ op = .floordiv ∨ op = .mod → y ≠ 0 := by
    rintro h rfl
    have := he.self_of_nhds
    rcases h with rfl | rfl | rfl <;>
      simp [BinOp.onFloats, PyFloat.truediv, PyOps.floordiv, PyOps.mod, Except.map] at this
  cases op with
  | add =>
    have h := congr_deriv (φ := fun t => x + t) hd (he.mono fun t ht => by
      simpa [BinOp.onFloats] using ht)
    rw [h.unique ((hasDerivAt_id y).const_add x)]; rfl
  | sub =>
    have h := congr_deriv (φ := fun t => x - t) hd (he.mono fun t ht => by
      simpa [BinOp.onFloats] using ht)
    rw [h.unique ((hasDerivAt_id y).const_sub x)]; rfl
  | mul =>
    have h := congr_deriv (φ := fun t => x * t) hd (he.mono fun t ht => by
      simpa [BinOp.onFloats] using ht)
    rw [h.unique ((hasDerivAt_id y).const_mul x), mul_one]; rfl
  | truediv =>
    have hy := hy (by simp)
    have h := congr_deriv (φ := fun t => x / t) hd (by
      filter_upwards [he, eventually_ne_nhds hy] with t ht hne
      simpa [BinOp.onFloats, PyFloat.truediv, hne, Except.map] using ht)
    have h2 : HasDerivAt (fun t : ℝ => x / t) (-x / (y * y)) y := by
      have := (hasDerivAt_const y x).div (hasDerivAt_id y) hy
      have e : (0 * _root_.id y - x * 1) / _root_.id y ^ 2 = -x / (y * y) := by
        simp [pow_two]
      rw [e] at this
      exact this
    rw [h.unique h2]
    simp [BinOp.deriv1, PyFloat.sq, PyFloat.truediv, hy, lift2]
  | floordiv =>
    have hy := hy (by simp)
    have h := congr_deriv (φ := fun t => ((⌊x / t⌋ : ℤ) : ℝ)) hd (by
      filter_upwards [he, eventually_ne_nhds hy] with t ht hne
      simpa [BinOp.onFloats, PyOps.floordiv, hne, Except.map] using ht)
    rw [int_deriv_zero h]; rfl
  | mod => exact absurd rfl hop
  | pow =>
    rw [BinOp.deriv1, pow_deriv1_true (he.mono fun t ht => BinOp.onFloats_pow ht) hd]; rfl

/-! Powers: where the derivatives exist. -/

theorem pow_cases {x y z : ℝ} (h : powReal x y = .ok (.real (fin z))) :
    0 < x ∨ (x = 0 ∧ 0 ≤ y) ∨ (x < 0 ∧ ∃ n : ℤ, y = n) := by
  rcases lt_trichotomy x 0 with hx | hx | hx
  · exact Or.inr (Or.inr ⟨hx, _, (powReal_neg_int hx h).1⟩)
  · refine Or.inr (Or.inl ⟨hx, ?_⟩)
    by_contra hy
    have hy := not_le.mp hy
    subst hx
    simp [powReal, hy.ne, hy] at h
  · exact Or.inl hx

/-- Where `x ** y` has a derivative with respect to `x`, although `x` can be negative. -/
theorem pow_deriv0_exists {x y : ℝ} (h : 0 < x ∨ y = 0 ∨ ∃ n : ℤ, y = n ∧ (x ≠ 0 ∨ 0 ≤ n)) :
    ∃ (g : ℝ → ℝ) (d : ℝ), (∀ᶠ t in 𝓝 x, powReal t y = .ok (.real (fin (g t)))) ∧ HasDerivAt g d x := by
  rcases h with h | rfl | ⟨n, rfl, h⟩
  · refine ⟨fun t => t ^ y, _, ?_, Real.hasDerivAt_rpow_const (Or.inl h.ne')⟩
    filter_upwards [eventually_gt_nhds h] with t ht
    exact pow_pos_eq ht
  · exact ⟨fun _ => 1, 0, Eventually.of_forall fun t => by simp [powReal], hasDerivAt_const _ _⟩
  · refine ⟨fun t => t ^ n, _, ?_, hasDerivAt_zpow n x h⟩
    rcases h with h | h
    · filter_upwards [eventually_ne_nhds h] with t ht
      exact pow_int_eq ht n
    · refine Eventually.of_forall fun t => ?_
      by_cases ht : t = 0
      · subst ht; exact pow_zero_nonneg h
      · exact pow_int_eq ht n

theorem pow_deriv1_exists {x y : ℝ} (h : 0 < x ∨ (x = 0 ∧ 0 < y)) :
    ∃ (g : ℝ → ℝ) (d : ℝ), (∀ᶠ t in 𝓝 y, powReal x t = .ok (.real (fin (g t)))) ∧ HasDerivAt g d y := by
  rcases h with h | ⟨rfl, h⟩
  · exact ⟨fun t => x ^ t, _, Eventually.of_forall fun t => pow_pos_eq h,
      (Real.hasStrictDerivAt_const_rpow h y).hasDerivAt⟩
  · refine ⟨fun _ => 0, 0, ?_, hasDerivAt_const _ _⟩
    filter_upwards [eventually_gt_nhds h] with t ht
    simp [powReal, ht.ne', not_lt.mpr ht.le]

/-- The value of the derivative of `x ** y` with respect to `x`, when `x ** y` has a value: the true
derivative, or NaN where there is none. -/
theorem pow_deriv0_value {x y z : ℝ} (h : powReal x y = .ok (.real (fin z))) :
    (∃ (g : ℝ → ℝ) (d : ℝ), (∀ᶠ t in 𝓝 x, powReal t y = .ok (.real (fin (g t)))) ∧ HasDerivAt g d x ∧
      nanIfException (powDeriv0 (fin x) (fin y)) = .ok (fin d)) ∨
    ((¬ ∃ (g : ℝ → ℝ) (d : ℝ), (∀ᶠ t in 𝓝 x, powReal t y = .ok (.real (fin (g t)))) ∧ HasDerivAt g d x) ∧
      nanIfException (powDeriv0 (fin x) (fin y)) = .ok nan) := by
  by_cases hex : 0 < x ∨ y = 0 ∨ ∃ n : ℤ, y = n ∧ (x ≠ 0 ∨ 0 ≤ n)
  · obtain ⟨g, d, h1, h2⟩ := pow_deriv0_exists hex
    left
    refine ⟨g, d, h1, h2, ?_⟩
    rw [pow_deriv0_true h1 h2]; rfl
  · right
    push Not at hex
    obtain ⟨hx, hy, hn⟩ := hex
    rcases pow_cases h with h1 | ⟨rfl, h1⟩ | ⟨h1, n, rfl⟩
    · exact absurd h1 (not_lt.mpr hx)
    · have hnan : powDeriv0 (fin 0) (fin y) = .ok nan := by
        have hni : ¬ y - ⌊y⌋ = 0 := by
          intro h0
          have h0 : y = ⌊y⌋ := by linarith
          have := hn ⌊y⌋ h0
          have h2 : (0:ℝ) ≤ (⌊y⌋ : ℝ) := h0 ▸ h1
          have h3 : (0:ℤ) ≤ ⌊y⌋ := by exact_mod_cast h2
          omega
        have hni' : ¬ Int.fract y = 0 := hni
        simp [powDeriv0, PyFloat.eqb, hy, PyOps.mod, hni', PyFloat.nan]
      refine ⟨?_, by rw [hnan]; rfl⟩
      rintro ⟨g, d, h1, h2⟩
      rw [pow_deriv0_true h1 h2] at hnan
      cases hnan
    · exact absurd ((hn n rfl).1) h1.ne

theorem pow_deriv1_value {x y z : ℝ} (h : powReal x y = .ok (.real (fin z))) :
    (∃ (g : ℝ → ℝ) (d : ℝ), (∀ᶠ t in 𝓝 y, powReal x t = .ok (.real (fin (g t)))) ∧ HasDerivAt g d y ∧
      nanIfException (powDeriv1 (fin x) (fin y)) = .ok (fin d)) ∨
    ((¬ ∃ (g : ℝ → ℝ) (d : ℝ), (∀ᶠ t in 𝓝 y, powReal x t = .ok (.real (fin (g t)))) ∧ HasDerivAt g d y) ∧
      nanIfException (powDeriv1 (fin x) (fin y)) = .ok nan) := by
  by_cases hex : 0 < x ∨ (x = 0 ∧ 0 < y)
  · obtain ⟨g, d, h1, h2⟩ := pow_deriv1_exists hex
    left
    refine ⟨g, d, h1, h2, ?_⟩
    rw [pow_deriv1_true h1 h2]; rfl
  · right
    push Not at hex
    obtain ⟨hx, hy⟩ := hex
    have hnan : powDeriv1 (fin x) (fin y) = .error .valueError := by
      by_cases h0 : x = 0
      · subst h0
        simp [powDeriv1, PyFloat.eqb, PyFloat.ltb, not_lt.mpr (hy rfl), PyOps.log]
      · simp [powDeriv1, PyFloat.eqb, h0, PyOps.log, hx]
    refine ⟨?_, by rw [hnan]; rfl⟩
    rintro ⟨g, d, h1, h2⟩
    rw [pow_deriv1_true h1 h2] at hnan
    cases hnan

end Unc
