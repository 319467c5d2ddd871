import Verif.Props.C84_Umath2
import Verif.Lemmas.DerivMath
import Verif.Py.RoundedRange

/-
C84: other functions of `umath` that satisfy the hypotheses of the theorems on calculations: inverse trigonometric and hyperbolic
functions, `log10`, `log1p`, `fabs`. Their derivatives are calculated by divisions.
-/

namespace Unc

set_option autoImplicit false

/-! ### Relative errors -/

/-- Relative error of a sum, a difference or a square root, when the argument has the relative error `ρ`. -/
def nextError (u ρ : ℝ) : ℝ := ρ + u * (1 + ρ)

/-- Relative error of a quotient whose denominator has the relative error `δ`. -/
noncomputable def divisorError (u δ : ℝ) : ℝ := (u + δ) / (1 - δ)

theorem nextError_nonneg {u ρ : ℝ} (hu : 0 ≤ u) (hρ : 0 ≤ ρ) : 0 ≤ nextError u ρ := by unfold nextError; positivity

theorem divisorError_nonneg {u δ : ℝ} (hu : 0 ≤ u) (hδ : 0 ≤ δ) (h1 : δ < 1) : 0 ≤ divisorError u δ :=
  div_nonneg (add_nonneg hu hδ) (by linarith)

theorem nextError_of {u ρ q s D : ℝ} (hu : 0 ≤ u) (hD : 0 ≤ D) (hq : |q - D| ≤ ρ * D) (hs : |s - q| ≤ u * |q|) :
    |s - D| ≤ nextError u ρ * D := by
  have e : s - D = (s - q) + (q - D) := by ring
  have hq' : |q| ≤ (1 + ρ) * D := by
    have : q = D + (q - D) := by ring
    rw [this]
    refine (abs_add_le _ _).trans ?_
    rw [abs_of_nonneg hD]
    linarith
  rw [e]
  refine (abs_add_le _ _).trans ?_
  have := mul_le_mul_of_nonneg_left hq' hu
  unfold nextError
  linarith

theorem sqrt_rel {δ s D : ℝ} (hD : 0 < D) (hs0 : 0 ≤ s) (hs : |s - D| ≤ δ * D) : |√s - √D| ≤ δ * √D := by
  have hd : 0 < √D := Real.sqrt_pos.2 hD
  have hs' : 0 ≤ √s := Real.sqrt_nonneg s
  have e : (√s - √D) * (√s + √D) = s - D := by
    have h1 := Real.mul_self_sqrt hs0
    have h2 := Real.mul_self_sqrt hD.le
    linear_combination h1 - h2
  have h3 : |√s - √D| * (√s + √D) ≤ δ * √D * √D := by
    have : |√s - √D| * (√s + √D) = |s - D| := by
      rw [← e, abs_mul, abs_of_nonneg (by positivity : 0 ≤ √s + √D)]
    rw [this, mul_assoc, Real.mul_self_sqrt hD.le]
    exact hs
  have h4 : |√s - √D| * √D ≤ |√s - √D| * (√s + √D) := mul_le_mul_of_nonneg_left (by linarith) (abs_nonneg _)
  exact le_of_mul_le_mul_right (h4.trans h3) hd

theorem divisorError_of {u η δ N D s c : ℝ} (hu : 0 ≤ u) (hD : 0 < D) (h1 : δ < 1) (hs : |s - D| ≤ δ * D)
    (hc : |c - N / s| ≤ u * |N / s| + η) : |c - N / D| ≤ divisorError u δ * |N / D| + η := by
  have hδ : 0 ≤ δ := by
    have := (abs_nonneg _).trans hs
    by_contra hn
    exact absurd this (not_le.2 (mul_neg_of_neg_of_pos (not_le.1 hn) hD))
  have hsD : (1 - δ) * D ≤ s := by
    have := (abs_le.1 hs).1
    linarith
  have hs0 : 0 < s := (mul_pos (by linarith) hD).trans_le hsD
  have hDs : D / s ≤ 1 / (1 - δ) := by
    rw [div_le_div_iff₀ hs0 (by linarith)]
    linarith
  have e1 : N / s = N / D * (D / s) := by field_simp
  have e2 : N / s - N / D = N / D * ((D - s) / s) := by field_simp
  have b1 : |N / s| ≤ |N / D| * (1 / (1 - δ)) := by
    rw [e1, abs_mul, abs_of_pos (div_pos hD hs0)]
    exact mul_le_mul_of_nonneg_left hDs (abs_nonneg _)
  have b2 : |N / s - N / D| ≤ |N / D| * (δ * (1 / (1 - δ))) := by
    rw [e2, abs_mul, abs_div (D - s), abs_of_pos hs0, abs_sub_comm]
    refine mul_le_mul_of_nonneg_left ?_ (abs_nonneg _)
    calc |s - D| / s ≤ δ * D / s := by gcongr
      _ = δ * (D / s) := by ring
      _ ≤ δ * (1 / (1 - δ)) := mul_le_mul_of_nonneg_left hDs hδ
  have e3 : c - N / D = (c - N / s) + (N / s - N / D) := by ring
  rw [e3]
  refine (abs_add_le _ _).trans ?_
  have := mul_le_mul_of_nonneg_left b1 hu
  have e4 : divisorError u δ * |N / D| = u * (|N / D| * (1 / (1 - δ))) + |N / D| * (δ * (1 / (1 - δ))) := by
    unfold divisorError
    ring
  rw [e4]
  linarith

/-! ### Mathematical functions -/

theorem inv_lip {A B m K t : ℝ} (hm : 0 < m) (hA : m ≤ A) (hB : m ≤ B) (h : |A - B| ≤ K * t) :
    |1 / A - 1 / B| ≤ K / m ^ 2 * t := by
  have pA : 0 < A := hm.trans_le hA
  have pB : 0 < B := hm.trans_le hB
  have e : 1 / A - 1 / B = (B - A) / (A * B) := by field_simp
  rw [e, abs_div, abs_of_pos (mul_pos pA pB), abs_sub_comm]
  have h2 : m ^ 2 ≤ A * B := by rw [sq]; exact mul_le_mul hA hB hm.le pA.le
  have h0 : 0 ≤ K * t := (abs_nonneg _).trans h
  calc |A - B| / (A * B) ≤ K * t / m ^ 2 := div_le_div₀ h0 h (by positivity) h2
    _ = K / m ^ 2 * t := by ring

theorem sqrt_lip {A B m : ℝ} (hm : 0 < m) (hA : m ≤ A) (hB : m ≤ B) : |√A - √B| ≤ |A - B| / (2 * √m) := by
  have hA0 : 0 ≤ A := hm.le.trans hA
  have hB0 : 0 ≤ B := hm.le.trans hB
  have pm : 0 < √m := Real.sqrt_pos.2 hm
  have e : (√A - √B) * (√A + √B) = A - B := by
    have h1 := Real.mul_self_sqrt hA0
    have h2 := Real.mul_self_sqrt hB0
    linear_combination h1 - h2
  rw [le_div_iff₀ (by positivity), ← e, abs_mul, abs_of_nonneg (by positivity : 0 ≤ √A + √B)]
  refine mul_le_mul_of_nonneg_left ?_ (abs_nonneg _)
  have := Real.sqrt_le_sqrt hA
  have := Real.sqrt_le_sqrt hB
  linarith

theorem sq_sub_sq_le {b x y : ℝ} (hx : |x| ≤ b) (hy : |y| ≤ b) : |x ^ 2 - y ^ 2| ≤ 2 * b * |x - y| := by
  have e : x ^ 2 - y ^ 2 = (x + y) * (x - y) := by ring
  rw [e, abs_mul]
  refine mul_le_mul_of_nonneg_right ((abs_add_le _ _).trans (by linarith)) (abs_nonneg _)

/-- The functions are studied for numbers that are not larger: the square of the numbers must not overflow. -/
noncomputable def moderate : ℝ := (2 : ℝ) ^ 499

theorem two_mul_moderate : 2 * (1 + moderate ^ 2) ≤ (2 : ℝ) ^ 1000 := by
  have e : moderate ^ 2 = (2 : ℝ) ^ 998 := by unfold moderate; rw [← pow_mul]
  have e2 : (2 : ℝ) ^ 1000 = 4 * (2 : ℝ) ^ 998 := by
    rw [show (1000 : ℕ) = 998 + 2 from rfl, pow_add, mul_comm]; norm_num
  have e3 : (1 : ℝ) ≤ (2 : ℝ) ^ 998 := one_le_pow₀ (by norm_num)
  rw [e, e2]
  clear e e2
  generalize (2 : ℝ) ^ 998 = z at *
  linarith

theorem moderate_nonneg : 0 ≤ moderate := pow_nonneg (by norm_num) _

theorem one_le_moderate : 1 ≤ moderate := one_le_pow₀ (by norm_num)

/-- The arctangent. -/
noncomputable def atanSpec (u η ε : ℝ) : FnSpec1 where
  g := Real.arctan
  d := fun x => 1 / (1 + x ^ 2)
  dom := fun x => |x| ≤ moderate
  lip := 1
  dlip := 1
  acc := ε
  dacc := divisorError u (nextError u (u + η)) + η

theorem atanSpec_smooth {u η ε : ℝ} (hu : 0 ≤ u) (hη : 0 ≤ η) (hε : 0 ≤ ε) (h1 : nextError u (u + η) < 1) :
    (atanSpec u η ε).Smooth := by
  have hD : ∀ x : ℝ, 1 ≤ 1 + x ^ 2 := fun x => by linarith [sq_nonneg x]
  refine ⟨fun x _ => Real.hasDerivAt_arctan x, fun x y _ _ => ?_, fun x y _ _ => ?_, zero_le_one, zero_le_one, hε,
    add_nonneg (divisorError_nonneg hu (nextError_nonneg hu (add_nonneg hu hη)) h1) hη⟩
  · refine lip_of_deriv (f' := fun x => 1 / (1 + x ^ 2)) convex_univ (fun x _ => Real.hasDerivAt_arctan x) (fun x _ => ?_)
      (Set.mem_univ _) (Set.mem_univ _)
    have := hD x
    rw [abs_of_pos (by positivity)]
    exact (div_le_one (by linarith)).2 this
  · refine lip_of_deriv (f := fun x => 1 / (1 + x ^ 2)) (f' := fun x => -(2 * x) / (1 + x ^ 2) ^ 2) convex_univ (fun x _ => ?_)
      (fun x _ => ?_) (Set.mem_univ _) (Set.mem_univ _)
    · have := hD x
      have h := (((hasDerivAt_pow 2 x).const_add 1).inv (by linarith : (1 + x ^ 2) ≠ 0))
      have e : (fun x : ℝ => 1 / (1 + x ^ 2)) = (fun x => 1 + x ^ 2)⁻¹ := by funext x; simp
      rw [e]
      exact h.congr_deriv (by simp)
    · have := hD x
      have p : 0 < (1 + x ^ 2) ^ 2 := by positivity
      rw [abs_div, abs_of_pos p, abs_neg]
      refine (div_le_one p).2 (abs_le.2 ?_)
      constructor <;> nlinarith [sq_nonneg (x - 1), sq_nonneg (x + 1)]

/-- The inverse hyperbolic sine. -/
noncomputable def asinhSpec (u η ε : ℝ) : FnSpec1 where
  g := Real.arsinh
  d := fun x => 1 / √(1 + x ^ 2)
  dom := fun x => |x| ≤ moderate
  lip := 1
  dlip := 1
  acc := ε
  dacc := divisorError u (nextError u (nextError u (u + η))) + η

theorem one_le_sqrt_one_add (x : ℝ) : 1 ≤ √(1 + x ^ 2) := by
  rw [Real.one_le_sqrt]; linarith [sq_nonneg x]

theorem asinhSpec_smooth {u η ε : ℝ} (hu : 0 ≤ u) (hη : 0 ≤ η) (hε : 0 ≤ ε) (h1 : nextError u (nextError u (u + η)) < 1) :
    (asinhSpec u η ε).Smooth := by
  have hd : ∀ x : ℝ, HasDerivAt Real.arsinh (1 / √(1 + x ^ 2)) x := fun x => by
    rw [one_div]; exact Real.hasDerivAt_arsinh x
  refine ⟨fun x _ => hd x, fun x y _ _ => ?_, fun x y _ _ => ?_, zero_le_one, zero_le_one, hε,
    add_nonneg (divisorError_nonneg hu (nextError_nonneg hu (nextError_nonneg hu (add_nonneg hu hη))) h1) hη⟩
  · refine lip_of_deriv (f' := fun x => 1 / √(1 + x ^ 2)) convex_univ (fun x _ => hd x) (fun x _ => ?_) (Set.mem_univ _) (Set.mem_univ _)
    have := one_le_sqrt_one_add x
    rw [abs_of_pos (by positivity)]
    exact (div_le_one (by linarith)).2 this
  · show |1 / √(1 + x ^ 2) - 1 / √(1 + y ^ 2)| ≤ 1 * |x - y|
    have := inv_lip (K := 1) (t := |x - y|) one_pos (one_le_sqrt_one_add x) (one_le_sqrt_one_add y) ?_
    · simpa using this
    · have e : (√(1 + x ^ 2) - √(1 + y ^ 2)) * (√(1 + x ^ 2) + √(1 + y ^ 2)) = (x + y) * (x - y) := by
        have h1 := Real.mul_self_sqrt (by positivity : 0 ≤ 1 + x ^ 2)
        have h2 := Real.mul_self_sqrt (by positivity : 0 ≤ 1 + y ^ 2)
        linear_combination h1 - h2
      have hx : |x| ≤ √(1 + x ^ 2) := Real.abs_le_sqrt (by linarith)
      have hy : |y| ≤ √(1 + y ^ 2) := Real.abs_le_sqrt (by linarith)
      have hp : 0 < √(1 + x ^ 2) + √(1 + y ^ 2) := by linarith [one_le_sqrt_one_add x, one_le_sqrt_one_add y]
      have h3 : |√(1 + x ^ 2) - √(1 + y ^ 2)| * (√(1 + x ^ 2) + √(1 + y ^ 2)) ≤
          1 * |x - y| * (√(1 + x ^ 2) + √(1 + y ^ 2)) := by
        calc |√(1 + x ^ 2) - √(1 + y ^ 2)| * (√(1 + x ^ 2) + √(1 + y ^ 2)) = |x + y| * |x - y| := by
              rw [← abs_mul, ← e, abs_mul _ (_ + _), abs_of_pos hp]
          _ ≤ (√(1 + x ^ 2) + √(1 + y ^ 2)) * |x - y| :=
              mul_le_mul_of_nonneg_right ((abs_add_le _ _).trans (add_le_add hx hy)) (abs_nonneg _)
          _ = _ := by ring
      exact le_of_mul_le_mul_right h3 hp

/-- Relative error of `x**2`, compared to `1 - x**2`, between `-b` and `b`. -/
noncomputable def squareRel (u η b : ℝ) : ℝ := (u * b ^ 2 + η) / (1 - b ^ 2)

theorem squareRel_nonneg {u η b : ℝ} (hu : 0 ≤ u) (hη : 0 ≤ η) (hb : b ^ 2 < 1) : 0 ≤ squareRel u η b :=
  div_nonneg (by positivity) (by linarith)

theorem sq_lt_one_of {b : ℝ} (h0 : 0 ≤ b) (h1 : b < 1) : b ^ 2 < 1 := by nlinarith

theorem one_sub_sq_le {b x : ℝ} (hx : |x| ≤ b) : 1 - b ^ 2 ≤ 1 - x ^ 2 := by
  have : x ^ 2 ≤ b ^ 2 := sq_le_sq.2 (by rw [abs_of_nonneg ((abs_nonneg x).trans hx)]; exact hx)
  linarith

/-- The inverse hyperbolic tangent, between `-b` and `b`. -/
noncomputable def atanhSpec (u η b ε : ℝ) : FnSpec1 where
  g := Real.artanh
  d := fun x => 1 / (1 - x ^ 2)
  dom := fun x => |x| ≤ b
  lip := 1 / (1 - b ^ 2)
  dlip := 2 * b / (1 - b ^ 2) ^ 2
  acc := ε
  dacc := divisorError u (nextError u (squareRel u η b)) * (1 / (1 - b ^ 2)) + η

theorem atanhSpec_smooth {u η b ε : ℝ} (hu : 0 ≤ u) (hη : 0 ≤ η) (hb0 : 0 ≤ b) (hb : b < 1) (hε : 0 ≤ ε)
    (h1 : nextError u (squareRel u η b) < 1) : (atanhSpec u η b ε).Smooth := by
  have hb2 := sq_lt_one_of hb0 hb
  have pm : 0 < 1 - b ^ 2 := by linarith
  have hd : ∀ x : ℝ, |x| ≤ b → HasDerivAt Real.artanh (1 / (1 - x ^ 2)) x := fun x hx =>
    artanh_hasDerivAt (by linarith [(abs_le.1 hx).1]) (by linarith [(abs_le.1 hx).2])
  refine ⟨hd, fun x y hx hy => ?_, fun x y hx hy => ?_, (one_div_pos.2 pm).le, by show 0 ≤ 2 * b / (1 - b ^ 2) ^ 2; positivity, hε,
    add_nonneg (mul_nonneg (divisorError_nonneg hu (nextError_nonneg hu (squareRel_nonneg hu hη hb2)) h1) (one_div_pos.2 pm).le) hη⟩
  · refine lip_of_deriv (f' := fun x => 1 / (1 - x ^ 2)) (convex_abs_le b) hd (fun x hx => ?_) hx hy
    have := one_sub_sq_le hx
    rw [abs_of_pos (one_div_pos.2 (by linarith))]
    exact one_div_le_one_div_of_le pm this
  · refine inv_lip (t := |x - y|) pm (one_sub_sq_le hx) (one_sub_sq_le hy) ?_
    rw [sub_sub_sub_cancel_left, abs_sub_comm]
    exact sq_sub_sq_le hx hy

/-- The arcsine, between `-b` and `b`. -/
noncomputable def asinSpec (u η b ε : ℝ) : FnSpec1 where
  g := Real.arcsin
  d := fun x => 1 / √(1 - x ^ 2)
  dom := fun x => |x| ≤ b
  lip := 1 / √(1 - b ^ 2)
  dlip := b / √(1 - b ^ 2) / √(1 - b ^ 2) ^ 2
  acc := ε
  dacc := divisorError u (nextError u (nextError u (squareRel u η b))) * (1 / √(1 - b ^ 2)) + η

/-- The arccosine, between `-b` and `b`. -/
noncomputable def acosSpec (u η b ε : ℝ) : FnSpec1 :=
  { asinSpec u η b ε with g := Real.arccos, d := fun x => -1 / √(1 - x ^ 2) }

theorem asin_dlip {b x y : ℝ} (hb : b ^ 2 < 1) (hx : |x| ≤ b) (hy : |y| ≤ b) :
    |1 / √(1 - x ^ 2) - 1 / √(1 - y ^ 2)| ≤ b / √(1 - b ^ 2) / √(1 - b ^ 2) ^ 2 * |x - y| := by
  have pm : 0 < 1 - b ^ 2 := by linarith
  have ps : 0 < √(1 - b ^ 2) := Real.sqrt_pos.2 pm
  refine inv_lip (t := |x - y|) ps (Real.sqrt_le_sqrt (one_sub_sq_le hx)) (Real.sqrt_le_sqrt (one_sub_sq_le hy)) ?_
  refine (sqrt_lip pm (one_sub_sq_le hx) (one_sub_sq_le hy)).trans ?_
  rw [sub_sub_sub_cancel_left, abs_sub_comm, div_le_iff₀ (by positivity)]
  refine (sq_sub_sq_le hx hy).trans (le_of_eq ?_)
  field_simp

theorem asin_bound {b x : ℝ} (hb : b ^ 2 < 1) (hx : |x| ≤ b) : |1 / √(1 - x ^ 2)| ≤ 1 / √(1 - b ^ 2) := by
  have pm : 0 < 1 - b ^ 2 := by linarith
  have ps : 0 < √(1 - b ^ 2) := Real.sqrt_pos.2 pm
  have := Real.sqrt_le_sqrt (one_sub_sq_le hx)
  rw [abs_of_pos (one_div_pos.2 (ps.trans_le this))]
  exact one_div_le_one_div_of_le ps this

theorem asinSpec_smooth {u η b ε : ℝ} (hu : 0 ≤ u) (hη : 0 ≤ η) (hb0 : 0 ≤ b) (hb : b < 1) (hε : 0 ≤ ε)
    (h1 : nextError u (nextError u (squareRel u η b)) < 1) : (asinSpec u η b ε).Smooth := by
  have hb2 := sq_lt_one_of hb0 hb
  have pm : 0 < 1 - b ^ 2 := by linarith
  have ps : 0 < √(1 - b ^ 2) := Real.sqrt_pos.2 pm
  have hd : ∀ x : ℝ, |x| ≤ b → HasDerivAt Real.arcsin (1 / √(1 - x ^ 2)) x := fun x hx =>
    Real.hasDerivAt_arcsin (by linarith [(abs_le.1 hx).1]) (by linarith [(abs_le.1 hx).2])
  refine ⟨hd, fun x y hx hy => ?_, fun x y hx hy => asin_dlip hb2 hx hy, (one_div_pos.2 ps).le,
    by show 0 ≤ b / √(1 - b ^ 2) / √(1 - b ^ 2) ^ 2; positivity, hε, ?_⟩
  · exact lip_of_deriv (f' := fun x => 1 / √(1 - x ^ 2)) (convex_abs_le b) hd (fun x hx => asin_bound hb2 hx) hx hy
  · exact add_nonneg (mul_nonneg (divisorError_nonneg hu (nextError_nonneg hu (nextError_nonneg hu (squareRel_nonneg hu hη hb2))) h1)
      (one_div_pos.2 ps).le) hη

theorem acosSpec_smooth {u η b ε : ℝ} (hu : 0 ≤ u) (hη : 0 ≤ η) (hb0 : 0 ≤ b) (hb : b < 1) (hε : 0 ≤ ε)
    (h1 : nextError u (nextError u (squareRel u η b)) < 1) : (acosSpec u η b ε).Smooth := by
  have h := asinSpec_smooth hu hη hb0 hb hε h1
  have hb2 := sq_lt_one_of hb0 hb
  have hd : ∀ x : ℝ, |x| ≤ b → HasDerivAt Real.arccos (-1 / √(1 - x ^ 2)) x := fun x hx => by
    have := Real.hasDerivAt_arccos (x := x) (by linarith [(abs_le.1 hx).1]) (by linarith [(abs_le.1 hx).2])
    exact this.congr_deriv (by ring)
  refine ⟨hd, fun x y hx hy => ?_, fun x y hx hy => ?_, h.lip_nonneg, h.dlip_nonneg, hε, h.dacc_nonneg⟩
  · refine lip_of_deriv (f' := fun x => -1 / √(1 - x ^ 2)) (convex_abs_le b) hd (fun x hx => ?_) hx hy
    rw [neg_div, abs_neg]
    exact asin_bound hb2 hx
  · have := asin_dlip hb2 hx hy
    show |-1 / √(1 - x ^ 2) - -1 / √(1 - y ^ 2)| ≤ _
    rw [neg_div, neg_div, neg_sub_neg, abs_sub_comm]
    exact this

/-- Relative error of `x**2`, compared to `x**2 - 1`, for numbers that are not less than `a`. -/
noncomputable def squareRel' (u η a : ℝ) : ℝ := (u * a ^ 2 + η) / (a ^ 2 - 1)

theorem squareRel'_nonneg {u η a : ℝ} (hu : 0 ≤ u) (hη : 0 ≤ η) (ha : 1 < a ^ 2) : 0 ≤ squareRel' u η a :=
  div_nonneg (by positivity) (by linarith)

/-- The inverse hyperbolic cosine, for numbers that are not less than `a`. -/
noncomputable def acoshSpec (u η a ε : ℝ) : FnSpec1 where
  g := Real.arcosh
  d := fun x => 1 / √(x ^ 2 - 1)
  dom := fun x => a ≤ x ∧ x ≤ moderate
  lip := 1 / √(a ^ 2 - 1)
  dlip := a / √(a ^ 2 - 1) / √(a ^ 2 - 1) ^ 2
  acc := ε
  dacc := divisorError u (nextError u (nextError u (squareRel' u η a))) * (1 / √(a ^ 2 - 1)) + η

theorem sq_sub_one_le {a x : ℝ} (ha : 1 < a) (hx : a ≤ x) : a ^ 2 - 1 ≤ x ^ 2 - 1 := by nlinarith

theorem acosh_bound {a x : ℝ} (ha : 1 < a) (hx : a ≤ x) : |1 / √(x ^ 2 - 1)| ≤ 1 / √(a ^ 2 - 1) := by
  have ps : 0 < √(a ^ 2 - 1) := Real.sqrt_pos.2 (by nlinarith)
  have := Real.sqrt_le_sqrt (sq_sub_one_le ha hx)
  rw [abs_of_pos (one_div_pos.2 (ps.trans_le this))]
  exact one_div_le_one_div_of_le ps this

theorem acoshSpec_smooth {u η a ε : ℝ} (hu : 0 ≤ u) (hη : 0 ≤ η) (ha : 1 < a) (hε : 0 ≤ ε)
    (h1 : nextError u (nextError u (squareRel' u η a)) < 1) : (acoshSpec u η a ε).Smooth := by
  have ha2 : 1 < a ^ 2 := by nlinarith
  have pm : 0 < a ^ 2 - 1 := by linarith
  have ps : 0 < √(a ^ 2 - 1) := Real.sqrt_pos.2 pm
  have hd : ∀ x : ℝ, a ≤ x → HasDerivAt Real.arcosh (1 / √(x ^ 2 - 1)) x := fun x hx => by
    rw [one_div]; exact Real.hasDerivAt_arcosh (ha.trans_le hx)
  have hle : ∀ x : ℝ, a ≤ x → √(a ^ 2 - 1) ≤ √(x ^ 2 - 1) := fun x hx => Real.sqrt_le_sqrt (sq_sub_one_le ha hx)
  refine ⟨fun x hx => hd x hx.1, fun x y hx hy => ?_, fun x y hx hy => ?_, (one_div_pos.2 ps).le,
    by show 0 ≤ a / √(a ^ 2 - 1) / √(a ^ 2 - 1) ^ 2; positivity, hε, ?_⟩
  · exact lip_of_deriv (f' := fun x => 1 / √(x ^ 2 - 1)) (convex_Ici a) hd (fun x hx => acosh_bound ha hx) hx.1 hy.1
  · replace hx := hx.1
    replace hy := hy.1
    refine inv_lip (t := |x - y|) ps (hle x hx) (hle y hy) ?_
    have px : 0 ≤ x ^ 2 - 1 := pm.le.trans (sq_sub_one_le ha hx)
    have py : 0 ≤ y ^ 2 - 1 := pm.le.trans (sq_sub_one_le ha hy)
    have key : ∀ x : ℝ, a ≤ x → x ≤ a / √(a ^ 2 - 1) * √(x ^ 2 - 1) := by
      intro x hx
      have px : 0 ≤ x ^ 2 - 1 := pm.le.trans (sq_sub_one_le ha hx)
      rw [div_mul_eq_mul_div, le_div_iff₀ ps]
      have : √(a ^ 2 * (x ^ 2 - 1)) = a * √(x ^ 2 - 1) := by
        rw [Real.sqrt_mul (by positivity), Real.sqrt_sq (by linarith)]
      rw [← this]
      have : √(x ^ 2 * (a ^ 2 - 1)) = x * √(a ^ 2 - 1) := by
        rw [Real.sqrt_mul (by positivity), Real.sqrt_sq (by linarith)]
      rw [← this]
      exact Real.sqrt_le_sqrt (by nlinarith)
    have hp : 0 < √(x ^ 2 - 1) + √(y ^ 2 - 1) := by linarith [hle x hx, hle y hy]
    have e : (√(x ^ 2 - 1) - √(y ^ 2 - 1)) * (√(x ^ 2 - 1) + √(y ^ 2 - 1)) = (x + y) * (x - y) := by
      have h1 := Real.mul_self_sqrt px
      have h2 := Real.mul_self_sqrt py
      linear_combination h1 - h2
    refine le_of_mul_le_mul_right ?_ hp
    calc |√(x ^ 2 - 1) - √(y ^ 2 - 1)| * (√(x ^ 2 - 1) + √(y ^ 2 - 1)) = |x + y| * |x - y| := by
          rw [← abs_mul, ← e, abs_mul _ (_ + _), abs_of_pos hp]
      _ = (x + y) * |x - y| := by rw [abs_of_nonneg (by linarith [show a ≤ x from hx, show a ≤ y from hy])]
      _ ≤ (a / √(a ^ 2 - 1) * √(x ^ 2 - 1) + a / √(a ^ 2 - 1) * √(y ^ 2 - 1)) * |x - y| :=
          mul_le_mul_of_nonneg_right (add_le_add (key x hx) (key y hy)) (abs_nonneg _)
      _ = _ := by ring
  · exact add_nonneg (mul_nonneg (divisorError_nonneg hu (nextError_nonneg hu (nextError_nonneg hu (squareRel'_nonneg hu hη ha2))) h1)
      (one_div_pos.2 ps).le) hη

/-- `log(1 + x)`, for numbers that are not less than `a`. -/
noncomputable def log1pSpec (u η a ε : ℝ) : FnSpec1 where
  g := fun x => Real.log (1 + x)
  d := fun x => 1 / (1 + x)
  dom := fun x => a ≤ x ∧ x ≤ moderate
  lip := 1 / (1 + a)
  dlip := 1 / (1 + a) ^ 2
  acc := ε
  dacc := divisorError u u * (1 / (1 + a)) + η

theorem log1pSpec_smooth {u η a ε : ℝ} (hu : 0 ≤ u) (hη : 0 ≤ η) (ha : -1 < a) (hε : 0 ≤ ε) (h1 : u < 1) :
    (log1pSpec u η a ε).Smooth := by
  have pm : 0 < 1 + a := by linarith
  have hd : ∀ x : ℝ, a ≤ x → HasDerivAt (fun x => Real.log (1 + x)) (1 / (1 + x)) x := fun x hx =>
    ((hasDerivAt_id x).const_add 1).log (by simp only [id]; linarith)
  refine ⟨fun x hx => hd x hx.1, fun x y hx hy => ?_, fun x y hx hy => ?_, (one_div_pos.2 pm).le, by show 0 ≤ 1 / (1 + a) ^ 2; positivity, hε,
    add_nonneg (mul_nonneg (divisorError_nonneg hu hu h1) (one_div_pos.2 pm).le) hη⟩
  · refine lip_of_deriv (f := fun x => Real.log (1 + x)) (f' := fun x => 1 / (1 + x)) (convex_Ici a) hd (fun x hx => ?_) hx.1 hy.1
    have hx : a ≤ x := hx
    rw [abs_of_pos (one_div_pos.2 (by linarith))]
    exact one_div_le_one_div_of_le pm (by linarith)
  · have hx : a ≤ x := hx.1
    have hy : a ≤ y := hy.1
    refine inv_lip (t := |x - y|) pm (by linarith) (by linarith) ?_
    rw [add_sub_add_left_eq_sub, one_mul]

/-- The logarithm in base 10, for numbers that are not less than `a`. `math.log(10)` has the relative error `κ`. -/
noncomputable def log10Spec (u η a ε κ : ℝ) : FnSpec1 where
  g := fun x => Real.log x / Real.log 10
  d := fun x => 1 / x / Real.log 10
  dom := fun x => a ≤ x
  lip := 1 / a / Real.log 10
  dlip := 1 / a ^ 2 / Real.log 10
  acc := ε
  dacc := divisorError u κ * (((1 + u) / a + η) / Real.log 10) + η + (u / a + η) / Real.log 10

theorem log10Spec_smooth {u η a ε κ : ℝ} (hu : 0 ≤ u) (hη : 0 ≤ η) (ha : 0 < a) (hε : 0 ≤ ε) (hκ : 0 ≤ κ) (h1 : κ < 1) :
    (log10Spec u η a ε κ).Smooth := by
  have pl := log_ten_pos
  have pi := divisorError_nonneg hu hκ h1
  have hd : ∀ x : ℝ, a ≤ x → HasDerivAt (fun x => Real.log x / Real.log 10) (1 / x / Real.log 10) x := fun x hx => by
    rw [one_div]; exact (Real.hasDerivAt_log (ha.trans_le hx).ne').div_const _
  refine ⟨hd, fun x y hx hy => ?_, fun x y hx hy => ?_, by show 0 ≤ 1 / a / Real.log 10; positivity,
    by show 0 ≤ 1 / a ^ 2 / Real.log 10; positivity, hε, by simp only [log10Spec]; positivity⟩
  · refine lip_of_deriv (f := fun x => Real.log x / Real.log 10) (f' := fun x => 1 / x / Real.log 10) (convex_Ici a) hd (fun x hx => ?_)
      hx hy
    have hx : a ≤ x := hx
    have : 0 < x := ha.trans_le hx
    rw [abs_of_pos (by positivity)]
    show 1 / x / Real.log 10 ≤ 1 / a / Real.log 10
    gcongr
  · have := inv_lip (K := 1) (t := |x - y|) ha hx hy (by rw [one_mul])
    show |1 / x / Real.log 10 - 1 / y / Real.log 10| ≤ 1 / a ^ 2 / Real.log 10 * |x - y|
    rw [← sub_div, abs_div, abs_of_pos pl, div_mul_eq_mul_div]
    gcongr

/-- The absolute value, for numbers whose absolute value is not less than `a`. -/
noncomputable def fabsSpec (a ε : ℝ) : FnSpec1 where
  g := fun x => |x|
  d := fun x => if 0 < x then 1 else -1
  dom := fun x => a ≤ |x|
  lip := 1
  dlip := 1 / a
  acc := ε
  dacc := 0

theorem fabsSpec_smooth {a ε : ℝ} (ha : 0 < a) (hε : 0 ≤ ε) : (fabsSpec a ε).Smooth := by
  refine ⟨fun x hx => ?_, fun x y _ _ => ?_, fun x y hx hy => ?_, zero_le_one, (one_div_pos.2 ha).le, hε, le_rfl⟩
  · have hx : a ≤ |x| := hx
    have h0 : x ≠ 0 := abs_pos.1 (ha.trans_le hx)
    show HasDerivAt (fun x : ℝ => |x|) (if 0 < x then 1 else -1) x
    rcases lt_or_gt_of_ne h0 with h | h
    · rw [if_neg (not_lt.2 h.le)]; exact hasDerivAt_abs_neg h
    · rw [if_pos h]; exact hasDerivAt_abs_pos h
  · show |(|x| - |y|)| ≤ 1 * |x - y|
    rw [one_mul]; exact abs_abs_sub_abs_le _ _
  · have hx : a ≤ |x| := hx
    have hy : a ≤ |y| := hy
    show |(if 0 < x then (1 : ℝ) else -1) - (if 0 < y then (1 : ℝ) else -1)| ≤ 1 / a * |x - y|
    have h0 : 0 ≤ 1 / a * |x - y| := by positivity
    rw [div_mul_eq_mul_div, one_mul] at h0 ⊢
    split <;> rename_i h1 <;> split <;> rename_i h2
    · simpa using h0
    · rw [abs_of_pos h1] at hx
      rw [abs_of_nonpos (not_lt.1 h2)] at hy
      rw [le_div_iff₀ ha, abs_of_nonneg (by linarith : 0 ≤ x - y)]
      norm_num
      linarith
    · rw [abs_of_nonpos (not_lt.1 h1)] at hx
      rw [abs_of_pos h2] at hy
      rw [le_div_iff₀ ha, abs_of_nonpos (by linarith : x - y ≤ 0)]
      norm_num
      linarith
    · simpa using h0

/-! ### The functions of `umath` -/

section
variable {F : Type} [PyMath F] [RoundedOps F] [RoundedRange F]

theorem sum_bound {q D ρ : ℝ} (hD : 0 ≤ D) (h : |q - D| ≤ ρ * D) (hρ : ρ ≤ 1) (hm : D ≤ 1 + moderate ^ 2) : |q| ≤ (2 : ℝ) ^ 1000 := by
  refine le_trans ?_ two_mul_moderate
  have e : q = D + (q - D) := by ring
  rw [e]
  refine (abs_add_le _ _).trans ?_
  rw [abs_of_nonneg hD]
  have := mul_le_mul_of_nonneg_right hρ hD
  linarith

theorem le_one_of_nextError {u ρ : ℝ} (hu : 0 ≤ u) (hρ : 0 ≤ ρ) (h : nextError u ρ < 1) : ρ ≤ 1 := by
  unfold nextError at h
  have : 0 ≤ u * (1 + ρ) := by positivity
  linarith

theorem sq_le_moderate {x : ℝ} (h : |x| ≤ moderate) : x ^ 2 ≤ moderate ^ 2 :=
  sq_le_sq.2 (by rw [abs_of_nonneg moderate_nonneg]; exact h)

/-- `1 + x**2` -/
theorem one_add_sq_rel {x q : F} (hx : Rounded.Fin x) (hm : |Rounded.val x| ≤ moderate) (hq : PyFloat.sq x = .ok q)
    (h1 : nextError (Rounded.u F) (Rounded.u F + Rounded.η F) < 1) :
    Rounded.Fin (1 + q) ∧ |Rounded.val (1 + q) - (1 + Rounded.val x ^ 2)| ≤
      nextError (Rounded.u F) (Rounded.u F + Rounded.η F) * (1 + Rounded.val x ^ 2) := by
  have hfq := RoundedOps.sq_fin x q hq hx
  obtain ⟨-, i1⟩ := Rounded.sq x q hq hfq
  have hu : 0 ≤ Rounded.u F := Rounded.u_nonneg
  have hη : 0 ≤ Rounded.η F := Rounded.η_nonneg
  have hD : 0 ≤ 1 + Rounded.val x ^ 2 := by positivity
  have i3 : |(1 + Rounded.val q) - (1 + Rounded.val x ^ 2)| ≤ (Rounded.u F + Rounded.η F) * (1 + Rounded.val x ^ 2) := by
    rw [add_sub_add_left_eq_sub]
    refine i1.trans ?_
    nlinarith [sq_nonneg (Rounded.val x), mul_nonneg hη (sq_nonneg (Rounded.val x))]
  have hf : Rounded.Fin (1 + q) := RoundedRange.add_fin 1 q Rounded.fin_one hfq (by
    rw [Rounded.val_one]
    exact sum_bound hD i3 (le_one_of_nextError hu (add_nonneg hu hη) h1) (by linarith [sq_le_moderate hm]))
  obtain ⟨-, -, i2⟩ := Rounded.add 1 q hf
  rw [Rounded.val_one] at i2
  exact ⟨hf, nextError_of hu hD i3 i2⟩

/-- `1 - x**2` -/
theorem one_sub_sq_rel {x q : F} {b : ℝ} (hfx : Rounded.Fin x) (hx : |Rounded.val x| ≤ b) (hb : b ^ 2 < 1) (hq : PyFloat.sq x = .ok q)
    (h1 : nextError (Rounded.u F) (squareRel (Rounded.u F) (Rounded.η F) b) < 1) :
    Rounded.Fin (1 - q) ∧ |Rounded.val (1 - q) - (1 - Rounded.val x ^ 2)| ≤
      nextError (Rounded.u F) (squareRel (Rounded.u F) (Rounded.η F) b) * (1 - Rounded.val x ^ 2) := by
  have hfq := RoundedOps.sq_fin x q hq hfx
  obtain ⟨-, i1⟩ := Rounded.sq x q hq hfq
  have hu : 0 ≤ Rounded.u F := Rounded.u_nonneg
  have hη : 0 ≤ Rounded.η F := Rounded.η_nonneg
  have hx2 := one_sub_sq_le hx
  have hD : 0 ≤ 1 - Rounded.val x ^ 2 := by linarith
  have i3 : |(1 - Rounded.val q) - (1 - Rounded.val x ^ 2)| ≤
      squareRel (Rounded.u F) (Rounded.η F) b * (1 - Rounded.val x ^ 2) := by
    rw [sub_sub_sub_cancel_left, abs_sub_comm]
    refine i1.trans ?_
    calc Rounded.u F * Rounded.val x ^ 2 + Rounded.η F ≤ Rounded.u F * b ^ 2 + Rounded.η F := by
          have : Rounded.val x ^ 2 ≤ b ^ 2 := by linarith
          have := mul_le_mul_of_nonneg_left this hu
          linarith
      _ = squareRel (Rounded.u F) (Rounded.η F) b * (1 - b ^ 2) := by
          unfold squareRel; rw [div_mul_cancel₀ _ (by linarith)]
      _ ≤ _ := mul_le_mul_of_nonneg_left hx2 (squareRel_nonneg hu hη hb)
  have hf : Rounded.Fin (1 - q) := RoundedRange.sub_fin 1 q Rounded.fin_one hfq (by
    rw [Rounded.val_one]
    refine sum_bound hD i3 (le_one_of_nextError hu (squareRel_nonneg hu hη hb) h1) ?_
    linarith [sq_nonneg (Rounded.val x), sq_nonneg moderate])
  obtain ⟨-, -, i2⟩ := RoundedStep.sub 1 q hf
  rw [Rounded.val_one] at i2
  exact ⟨hf, nextError_of hu hD i3 i2⟩

/-- `x**2 - 1` -/
theorem sq_sub_one_rel {x q : F} {a : ℝ} (hfx : Rounded.Fin x) (hx : a ≤ Rounded.val x) (hm : Rounded.val x ≤ moderate) (ha : 1 < a)
    (hq : PyFloat.sq x = .ok q) (h1 : nextError (Rounded.u F) (squareRel' (Rounded.u F) (Rounded.η F) a) < 1) :
    Rounded.Fin (q - 1) ∧ |Rounded.val (q - 1) - (Rounded.val x ^ 2 - 1)| ≤
      nextError (Rounded.u F) (squareRel' (Rounded.u F) (Rounded.η F) a) * (Rounded.val x ^ 2 - 1) := by
  have hfq := RoundedOps.sq_fin x q hq hfx
  obtain ⟨-, i1⟩ := Rounded.sq x q hq hfq
  have hu : 0 ≤ Rounded.u F := Rounded.u_nonneg
  have hη : 0 ≤ Rounded.η F := Rounded.η_nonneg
  have hx2 := sq_sub_one_le ha hx
  have pm : 0 < a ^ 2 - 1 := by nlinarith
  have hD : 0 ≤ Rounded.val x ^ 2 - 1 := by linarith
  have i3 : |(Rounded.val q - 1) - (Rounded.val x ^ 2 - 1)| ≤
      squareRel' (Rounded.u F) (Rounded.η F) a * (Rounded.val x ^ 2 - 1) := by
    rw [sub_sub_sub_cancel_right]
    refine i1.trans ?_
    unfold squareRel'
    rw [div_mul_eq_mul_div, le_div_iff₀ pm]
    nlinarith [mul_nonneg hu (by linarith : 0 ≤ Rounded.val x ^ 2 - a ^ 2), mul_nonneg hη (by linarith : 0 ≤ Rounded.val x ^ 2 - a ^ 2)]
  have hf : Rounded.Fin (q - 1) := RoundedRange.sub_fin q 1 hfq Rounded.fin_one (by
    rw [Rounded.val_one]
    refine sum_bound hD i3 (le_one_of_nextError hu (squareRel'_nonneg hu hη (by linarith)) h1) ?_
    linarith [sq_le_moderate (x := Rounded.val x) (by rw [abs_of_nonneg (by linarith)]; exact hm)])
  obtain ⟨-, -, i2⟩ := RoundedStep.sub q 1 hf
  rw [Rounded.val_one] at i2
  exact ⟨hf, nextError_of hu hD i3 i2⟩

/-- The square root of a number that is close to `D`. -/
theorem sqrt_rel_fl {s r : F} {D δ : ℝ} (hs : Rounded.Fin s) (hr : PyFloat.sqrt s = .ok r) (hD : 0 < D) (hδ : δ ≤ 1)
    (h : |Rounded.val s - D| ≤ δ * D) : Rounded.Fin r ∧ |Rounded.val r - √D| ≤ nextError (Rounded.u F) δ * √D := by
  have h0 : 0 ≤ Rounded.val s := by
    have := (abs_le.1 h).1
    have := mul_le_mul_of_nonneg_right hδ hD.le
    linarith
  obtain ⟨r', hr', hf⟩ := RoundedDiv.sqrt_ok s hs h0
  rw [hr] at hr'
  cases hr'
  obtain ⟨-, -, i⟩ := Rounded.sqrt s r hr hf
  refine ⟨hf, nextError_of Rounded.u_nonneg (Real.sqrt_nonneg _) (sqrt_rel hD h0 h) ?_⟩
  rwa [abs_of_nonneg (Real.sqrt_nonneg (Rounded.val s))]

/-- The quotient by a number that is close to `D`. -/
theorem div_rel_fl {n s c : F} {D δ : ℝ} (h : PyFloat.truediv n s = .ok c) (hf : Rounded.Fin c) (hs : Rounded.Fin s) (hD : 0 < D)
    (h1 : δ < 1) (hr : |Rounded.val s - D| ≤ δ * D) :
    Rounded.Fin n ∧ |Rounded.val c - Rounded.val n / D| ≤ divisorError (Rounded.u F) δ * |Rounded.val n / D| + Rounded.η F := by
  obtain ⟨hn, -, i⟩ := RoundedDiv.div n s c h hf hs
  exact ⟨hn, divisorError_of Rounded.u_nonneg hD h1 hr i⟩

/-- **C84**: `umath.atan`. -/
theorem C84_atan {ε : ℝ} (ha : Accurate F .atan Real.arctan (fun x => |x| ≤ moderate) ε)
    (h1 : nextError (Rounded.u F) (Rounded.u F + Rounded.η F) < 1) :
    Implements1 (MF1.wrapDef .atan : WrapDef F) (atanSpec (Rounded.u F) (Rounded.η F) ε) := by
  refine ⟨fun x y hx hd hy hf => ha x y hx hd (mapFlt_ok hy) hf, fun x c hx hd h hf => ?_⟩
  obtain ⟨q, h2, h3⟩ := bindRes_ok (nanIfException_fin
    (r := do let x2 ← PyFloat.sq x; PyFloat.truediv 1 (1 + x2)) h hf)
  obtain ⟨hs, i1⟩ := one_add_sq_rel hx hd h2 h1
  have hD : 1 ≤ 1 + Rounded.val x ^ 2 := by linarith [sq_nonneg (Rounded.val x)]
  obtain ⟨-, i2⟩ := div_rel_fl h3 hf hs (by linarith) h1 i1
  rw [Rounded.val_one] at i2
  refine i2.trans ?_
  have hu : 0 ≤ Rounded.u F := Rounded.u_nonneg
  have hE := divisorError_nonneg hu (nextError_nonneg hu (add_nonneg hu Rounded.η_nonneg)) h1
  have : |1 / (1 + Rounded.val x ^ 2)| ≤ 1 := by
    rw [abs_of_pos (by positivity)]
    exact (div_le_one (by linarith)).2 hD
  have := mul_le_mul_of_nonneg_left this hE
  show _ ≤ divisorError _ _ + _
  linarith

/-- **C84**: `umath.asinh`. -/
theorem C84_asinh {ε : ℝ} (ha : Accurate F .asinh Real.arsinh (fun x => |x| ≤ moderate) ε)
    (h1 : nextError (Rounded.u F) (nextError (Rounded.u F) (Rounded.u F + Rounded.η F)) < 1) :
    Implements1 (MF1.wrapDef .asinh : WrapDef F) (asinhSpec (Rounded.u F) (Rounded.η F) ε) := by
  refine ⟨fun x y hx hd hy hf => ha x y hx hd (mapFlt_ok hy) hf, fun x c hx hd h hf => ?_⟩
  obtain ⟨q, h2, h3⟩ := bindRes_ok (nanIfException_fin
    (r := do let x2 ← PyFloat.sq x; let s ← PyFloat.sqrt (1 + x2); PyFloat.truediv 1 s) h hf)
  obtain ⟨r, h4, h5⟩ := bindRes_ok h3
  have hu : 0 ≤ Rounded.u F := Rounded.u_nonneg
  have hn := nextError_nonneg hu (add_nonneg hu (Rounded.η_nonneg (F := F)))
  have h0 : nextError (Rounded.u F) (Rounded.u F + Rounded.η F) < 1 := by
    have h1' := h1
    unfold nextError at h1'
    have : 0 ≤ Rounded.u F * (1 + nextError (Rounded.u F) (Rounded.u F + Rounded.η F)) := by positivity
    unfold nextError at this ⊢
    linarith
  obtain ⟨hs, i1⟩ := one_add_sq_rel hx hd h2 h0
  obtain ⟨hr, i2⟩ := sqrt_rel_fl hs h4 (by positivity) h0.le i1
  have hD := one_le_sqrt_one_add (Rounded.val x)
  obtain ⟨-, i3⟩ := div_rel_fl h5 hf hr (by linarith) h1 i2
  rw [Rounded.val_one] at i3
  refine i3.trans ?_
  have hE := divisorError_nonneg hu (nextError_nonneg hu hn) h1
  have : |1 / √(1 + Rounded.val x ^ 2)| ≤ 1 := by
    rw [abs_of_pos (by positivity)]
    exact (div_le_one (by linarith)).2 hD
  have := mul_le_mul_of_nonneg_left this hE
  show _ ≤ divisorError _ _ + _
  linarith

/-- **C84**: `umath.atanh`. -/
theorem C84_atanh {b ε : ℝ} (hb0 : 0 ≤ b) (hb : b < 1) (ha : Accurate F .atanh Real.artanh (fun x => |x| ≤ b) ε)
    (h1 : nextError (Rounded.u F) (squareRel (Rounded.u F) (Rounded.η F) b) < 1) :
    Implements1 (MF1.wrapDef .atanh : WrapDef F) (atanhSpec (Rounded.u F) (Rounded.η F) b ε) := by
  refine ⟨fun x y hx hd hy hf => ha x y hx hd (mapFlt_ok hy) hf, fun x c hx hd h hf => ?_⟩
  obtain ⟨q, h2, h3⟩ := bindRes_ok (nanIfException_fin
    (r := do let x2 ← PyFloat.sq x; PyFloat.truediv 1 (1 - x2)) h hf)
  have hb2 := sq_lt_one_of hb0 hb
  obtain ⟨hs, i1⟩ := one_sub_sq_rel hx hd hb2 h2 h1
  have hD := one_sub_sq_le hd
  have pm : 0 < 1 - b ^ 2 := by linarith
  obtain ⟨-, i2⟩ := div_rel_fl h3 hf hs (by linarith) h1 i1
  rw [Rounded.val_one] at i2
  refine i2.trans ?_
  have hu : 0 ≤ Rounded.u F := Rounded.u_nonneg
  have hE := divisorError_nonneg hu (nextError_nonneg hu (squareRel_nonneg hu Rounded.η_nonneg hb2)) h1
  have : |1 / (1 - Rounded.val x ^ 2)| ≤ 1 / (1 - b ^ 2) := by
    rw [abs_of_pos (one_div_pos.2 (by linarith))]
    exact one_div_le_one_div_of_le pm hD
  have := mul_le_mul_of_nonneg_left this hE
  show _ ≤ divisorError _ _ * _ + _
  linarith

theorem lt_one_of_nextError {u ρ : ℝ} (hu : 0 ≤ u) (hρ : 0 ≤ ρ) (h : nextError u ρ < 1) : ρ < 1 := by
  unfold nextError at h
  have : 0 ≤ u * (1 + ρ) := by positivity
  linarith

theorem asin_deriv_fl {n x q r c : F} {b : ℝ} (hb0 : 0 ≤ b) (hb : b < 1) (hx : Rounded.Fin x) (hd : |Rounded.val x| ≤ b)
    (h1 : nextError (Rounded.u F) (nextError (Rounded.u F) (squareRel (Rounded.u F) (Rounded.η F) b)) < 1)
    (h2 : PyFloat.sq x = .ok q) (h4 : PyFloat.sqrt (1 - q) = .ok r) (h5 : PyFloat.truediv n r = .ok c) (hf : Rounded.Fin c) :
    Rounded.Fin n ∧ |Rounded.val c - Rounded.val n / √(1 - Rounded.val x ^ 2)| ≤
      divisorError (Rounded.u F) (nextError (Rounded.u F) (nextError (Rounded.u F) (squareRel (Rounded.u F) (Rounded.η F) b))) *
        |Rounded.val n / √(1 - Rounded.val x ^ 2)| + Rounded.η F := by
  have hu : 0 ≤ Rounded.u F := Rounded.u_nonneg
  have hb2 := sq_lt_one_of hb0 hb
  have hq := squareRel_nonneg hu (Rounded.η_nonneg (F := F)) hb2
  have h0 := lt_one_of_nextError hu (nextError_nonneg hu hq) h1
  obtain ⟨hs, i1⟩ := one_sub_sq_rel hx hd hb2 h2 h0
  have hD := one_sub_sq_le hd
  have pD : 0 < 1 - Rounded.val x ^ 2 := by linarith
  obtain ⟨hr, i2⟩ := sqrt_rel_fl hs h4 pD h0.le i1
  exact div_rel_fl h5 hf hr (Real.sqrt_pos.2 pD) h1 i2

/-- **C84**: `umath.asin`. -/
theorem C84_asin {b ε : ℝ} (hb0 : 0 ≤ b) (hb : b < 1) (ha : Accurate F .asin Real.arcsin (fun x => |x| ≤ b) ε)
    (h1 : nextError (Rounded.u F) (nextError (Rounded.u F) (squareRel (Rounded.u F) (Rounded.η F) b)) < 1) :
    Implements1 (MF1.wrapDef .asin : WrapDef F) (asinSpec (Rounded.u F) (Rounded.η F) b ε) := by
  refine ⟨fun x y hx hd hy hf => ha x y hx hd (mapFlt_ok hy) hf, fun x c hx hd h hf => ?_⟩
  obtain ⟨q, h2, h3⟩ := bindRes_ok (nanIfException_fin
    (r := do let x2 ← PyFloat.sq x; let s ← PyFloat.sqrt (1 - x2); PyFloat.truediv 1 s) h hf)
  obtain ⟨r, h4, h5⟩ := bindRes_ok h3
  obtain ⟨-, i⟩ := asin_deriv_fl hb0 hb hx hd h1 h2 h4 h5 hf
  rw [Rounded.val_one] at i
  refine i.trans ?_
  have hu : 0 ≤ Rounded.u F := Rounded.u_nonneg
  have hb2 := sq_lt_one_of hb0 hb
  have hE := divisorError_nonneg hu (nextError_nonneg hu (nextError_nonneg hu (squareRel_nonneg hu (Rounded.η_nonneg (F := F)) hb2))) h1
  have := mul_le_mul_of_nonneg_left (asin_bound hb2 hd) hE
  show _ ≤ divisorError _ _ * _ + _
  linarith

/-- **C84**: `umath.acos`. -/
theorem C84_acos {b ε : ℝ} (hb0 : 0 ≤ b) (hb : b < 1) (ha : Accurate F .acos Real.arccos (fun x => |x| ≤ b) ε)
    (h1 : nextError (Rounded.u F) (nextError (Rounded.u F) (squareRel (Rounded.u F) (Rounded.η F) b)) < 1) :
    Implements1 (MF1.wrapDef .acos : WrapDef F) (acosSpec (Rounded.u F) (Rounded.η F) b ε) := by
  refine ⟨fun x y hx hd hy hf => ha x y hx hd (mapFlt_ok hy) hf, fun x c hx hd h hf => ?_⟩
  obtain ⟨q, h2, h3⟩ := bindRes_ok (nanIfException_fin
    (r := do let x2 ← PyFloat.sq x; let s ← PyFloat.sqrt (1 - x2); PyFloat.truediv (-1) s) h hf)
  obtain ⟨r, h4, h5⟩ := bindRes_ok h3
  obtain ⟨hn, i⟩ := asin_deriv_fl hb0 hb hx hd h1 h2 h4 h5 hf
  rw [(RoundedOps.neg (1 : F) hn).2, Rounded.val_one] at i
  refine i.trans ?_
  have hu : 0 ≤ Rounded.u F := Rounded.u_nonneg
  have hb2 := sq_lt_one_of hb0 hb
  have hE := divisorError_nonneg hu (nextError_nonneg hu (nextError_nonneg hu (squareRel_nonneg hu (Rounded.η_nonneg (F := F)) hb2))) h1
  have := mul_le_mul_of_nonneg_left (asin_bound hb2 hd) hE
  rw [neg_div, abs_neg]
  show _ ≤ divisorError _ _ * _ + _
  linarith

/-- **C84**: `umath.acosh`. -/
theorem C84_acosh {a ε : ℝ} (ha : 1 < a) (hc : Accurate F .acosh Real.arcosh (fun x => a ≤ x ∧ x ≤ moderate) ε)
    (h1 : nextError (Rounded.u F) (nextError (Rounded.u F) (squareRel' (Rounded.u F) (Rounded.η F) a)) < 1) :
    Implements1 (MF1.wrapDef .acosh : WrapDef F) (acoshSpec (Rounded.u F) (Rounded.η F) a ε) := by
  refine ⟨fun x y hx hd hy hf => hc x y hx hd (mapFlt_ok hy) hf, fun x c hx hd h hf => ?_⟩
  obtain ⟨q, h2, h3⟩ := bindRes_ok (nanIfException_fin
    (r := do let x2 ← PyFloat.sq x; let s ← PyFloat.sqrt (x2 - 1); PyFloat.truediv 1 s) h hf)
  obtain ⟨r, h4, h5⟩ := bindRes_ok h3
  have hu : 0 ≤ Rounded.u F := Rounded.u_nonneg
  have ha2 : 1 < a ^ 2 := by nlinarith
  have hq := squareRel'_nonneg hu (Rounded.η_nonneg (F := F)) ha2
  have h0 := lt_one_of_nextError hu (nextError_nonneg hu hq) h1
  obtain ⟨hs, i1⟩ := sq_sub_one_rel hx hd.1 hd.2 ha h2 h0
  have hD := sq_sub_one_le ha hd.1
  have pD : 0 < Rounded.val x ^ 2 - 1 := by linarith
  obtain ⟨hr, i2⟩ := sqrt_rel_fl hs h4 pD h0.le i1
  obtain ⟨-, i⟩ := div_rel_fl h5 hf hr (Real.sqrt_pos.2 pD) h1 i2
  rw [Rounded.val_one] at i
  refine i.trans ?_
  have hE := divisorError_nonneg hu (nextError_nonneg hu (nextError_nonneg hu hq)) h1
  have := mul_le_mul_of_nonneg_left (acosh_bound ha hd.1) hE
  show _ ≤ divisorError _ _ * _ + _
  linarith

/-- **C84**: `umath.log1p`. -/
theorem C84_log1p {a ε : ℝ} (ha : -1 < a) (hl : Accurate F .log1p (fun x => Real.log (1 + x)) (fun x => a ≤ x ∧ x ≤ moderate) ε)
    (h1 : Rounded.u F < 1) :
    Implements1 (MF1.wrapDef .log1p : WrapDef F) (log1pSpec (Rounded.u F) (Rounded.η F) a ε) := by
  refine ⟨fun x y hx hd hy hf => hl x y hx hd (mapFlt_ok hy) hf, fun x c hx hd h hf => ?_⟩
  have h2 := nanIfException_fin (r := PyFloat.truediv 1 (1 + x)) h hf
  have hu : 0 ≤ Rounded.u F := Rounded.u_nonneg
  have pm : 0 < 1 + a := by linarith
  have pD : 0 < 1 + Rounded.val x := by linarith [hd.1]
  have hs : Rounded.Fin (1 + x) := RoundedRange.add_fin 1 x Rounded.fin_one hx (by
    rw [Rounded.val_one, abs_of_pos pD]
    refine le_trans ?_ two_mul_moderate
    have := one_le_moderate
    nlinarith [hd.2])
  obtain ⟨-, -, i1⟩ := Rounded.add 1 x hs
  rw [Rounded.val_one, abs_of_pos pD] at i1
  obtain ⟨-, i⟩ := div_rel_fl h2 hf hs pD h1 i1
  rw [Rounded.val_one] at i
  refine i.trans ?_
  have : |1 / (1 + Rounded.val x)| ≤ 1 / (1 + a) := by
    rw [abs_of_pos (one_div_pos.2 pD)]
    exact one_div_le_one_div_of_le pm (by linarith [hd.1])
  have := mul_le_mul_of_nonneg_left this (divisorError_nonneg hu hu h1)
  show _ ≤ divisorError _ _ * _ + _
  linarith

omit [RoundedRange F] in
/-- **C84**: `umath.log10`, if `math.log(10)` has the relative accuracy `κ`. -/
theorem C84_log10 {a ε κ : ℝ} (ha : 0 < a) (h1 : κ < 1)
    (hl : Accurate F .log10 (fun x => Real.log x / Real.log 10) (fun x => a ≤ x) ε)
    (hk : ∀ l : F, PyOps.log PyMath.ten = .ok l → Rounded.Fin l ∧ |Rounded.val l - Real.log 10| ≤ κ * Real.log 10) :
    Implements1 (MF1.wrapDef .log10 : WrapDef F) (log10Spec (Rounded.u F) (Rounded.η F) a ε κ) := by
  refine ⟨fun x y hx hd hy hf => hl x y hx hd (mapFlt_ok hy) hf, fun x c hx hd h hf => ?_⟩
  obtain ⟨v, h2, h3⟩ := bindRes_ok (nanIfException_fin
    (r := do let a ← PyFloat.truediv 1 x; let l ← PyOps.log PyMath.ten; PyFloat.truediv a l) h hf)
  obtain ⟨l, h4, h5⟩ := bindRes_ok h3
  have hd : a ≤ Rounded.val x := hd
  have px : 0 < Rounded.val x := ha.trans_le hd
  have pl := log_ten_pos
  have hu : 0 ≤ Rounded.u F := Rounded.u_nonneg
  have hη : 0 ≤ Rounded.η F := Rounded.η_nonneg
  obtain ⟨hfl, hl'⟩ := hk l h4
  have hκ : 0 ≤ κ := by
    have := (abs_nonneg _).trans hl'
    by_contra hn
    exact absurd this (not_le.2 (mul_neg_of_neg_of_pos (not_le.1 hn) pl))
  obtain ⟨hfv, -, i0⟩ := RoundedDiv.div v l c h5 hf hfl
  have i := divisorError_of hu pl h1 hl' i0
  obtain ⟨-, -, j⟩ := RoundedDiv.div 1 x v h2 hfv hx
  rw [Rounded.val_one, abs_of_pos (by positivity : 0 < 1 / Rounded.val x)] at j
  have hx1 : 1 / Rounded.val x ≤ 1 / a := one_div_le_one_div_of_le ha hd
  have j' : |Rounded.val v - 1 / Rounded.val x| ≤ Rounded.u F / a + Rounded.η F := by
    refine j.trans ?_
    have := mul_le_mul_of_nonneg_left hx1 hu
    rw [mul_one_div _ a] at this
    linarith
  have hv : |Rounded.val v| ≤ (1 + Rounded.u F) / a + Rounded.η F := by
    have e : Rounded.val v = 1 / Rounded.val x + (Rounded.val v - 1 / Rounded.val x) := by ring
    rw [e]
    refine (abs_add_le _ _).trans ?_
    rw [abs_of_pos (by positivity : 0 < 1 / Rounded.val x), add_div]
    linarith
  have e : Rounded.val c - 1 / Rounded.val x / Real.log 10 =
      (Rounded.val c - Rounded.val v / Real.log 10) + (Rounded.val v - 1 / Rounded.val x) / Real.log 10 := by ring
  show |Rounded.val c - 1 / Rounded.val x / Real.log 10| ≤ divisorError (Rounded.u F) κ * (((1 + Rounded.u F) / a + Rounded.η F) /
    Real.log 10) + Rounded.η F + (Rounded.u F / a + Rounded.η F) / Real.log 10
  rw [e]
  refine (abs_add_le _ _).trans (add_le_add (i.trans ?_) ?_)
  · rw [abs_div, abs_of_pos pl]
    have : |Rounded.val v| / Real.log 10 ≤ ((1 + Rounded.u F) / a + Rounded.η F) / Real.log 10 :=
      div_le_div_of_nonneg_right hv pl.le
    have := mul_le_mul_of_nonneg_left this (divisorError_nonneg hu hκ h1)
    linarith
  · rw [abs_div, abs_of_pos pl]
    exact div_le_div_of_nonneg_right j' pl.le

omit [RoundedRange F] in
/-- **C84**: `umath.fabs`, whose derivative is exact. -/
theorem C84_fabs {a ε : ℝ} (ha : 0 < a) (hv : Accurate F .fabs (fun x => |x|) (fun x => a ≤ |x|) ε) :
    Implements1 (MF1.wrapDef .fabs : WrapDef F) (fabsSpec a ε) := by
  refine ⟨fun x y hx hd hy hf => hv x y hx hd (mapFlt_ok hy) hf, fun x c hx hd h hf => ?_⟩
  have h2 := nanIfException_fin (r := derivFabs x) h hf
  have hd : a ≤ |Rounded.val x| := hd
  have h0 : Rounded.val x ≠ 0 := abs_pos.1 (ha.trans_le hd)
  have he : PyFloat.eqb x 0 = false := by
    cases h3 : PyFloat.eqb x 0 with
    | false => rfl
    | true => exact absurd (Rounded.eqb_zero x h3).2 h0
  have hz := RoundedOps.zero_ltb x hx
  show |Rounded.val c - if 0 < Rounded.val x then 1 else -1| ≤ 0
  simp only [derivFabs, geb, he, Bool.or_false] at h2
  by_cases hp : 0 < Rounded.val x
  · rw [if_pos (hz.2 hp)] at h2
    cases h2
    rw [if_pos hp, Rounded.val_one, sub_self, abs_zero]
  · have hn : PyFloat.ltb 0 x = false := by
      cases h3 : PyFloat.ltb 0 x with
      | false => rfl
      | true => exact absurd (hz.1 h3) hp
    rw [hn] at h2
    cases h2
    rw [if_neg hp, (RoundedOps.neg (1 : F) hf).2, Rounded.val_one, sub_self, abs_zero]

end

/-! ### Concrete cases: exact arithmetic -/

theorem NR.accurate_on {fn : MF1} {g : ℝ → ℝ} {dom : ℝ → Prop} (h : ∀ x, dom x → NR.mathReal fn x = .ok (.fin (g x))) :
    Accurate NR fn g dom 0 := by
  intro x y hx hd hy _
  cases x with
  | nan => exact hx.elim
  | fin x =>
    have : NR.mathReal fn x = .ok y := hy
    rw [h x hd] at this
    cases this
    simp [Rounded.val, NR.real]

theorem nextError_zero (ρ : ℝ) : nextError (Rounded.u NR) ρ = ρ := by
  show ρ + 0 * (1 + ρ) = ρ
  ring

theorem squareRel_zero (b : ℝ) : squareRel (Rounded.u NR) (Rounded.η NR) b = 0 := by
  show (0 * b ^ 2 + 0) / (1 - b ^ 2) = 0
  simp

theorem squareRel'_zero (b : ℝ) : squareRel' (Rounded.u NR) (Rounded.η NR) b = 0 := by
  show (0 * b ^ 2 + 0) / (b ^ 2 - 1) = 0
  simp

theorem NR.no_error : Rounded.u NR + Rounded.η NR = 0 := by
  show (0 : ℝ) + 0 = 0
  simp

example : Implements1 (MF1.wrapDef .atan : WrapDef NR) (atanSpec (Rounded.u NR) (Rounded.η NR) 0) ∧
    (atanSpec (Rounded.u NR) (Rounded.η NR) 0).Smooth :=
  have h : nextError (Rounded.u NR) (Rounded.u NR + Rounded.η NR) < 1 := by rw [nextError_zero, NR.no_error]; exact one_pos
  ⟨C84_atan (NR.accurate (fun _ => rfl) _) h, atanSpec_smooth le_rfl le_rfl le_rfl h⟩

example : Implements1 (MF1.wrapDef .asinh : WrapDef NR) (asinhSpec (Rounded.u NR) (Rounded.η NR) 0) ∧
    (asinhSpec (Rounded.u NR) (Rounded.η NR) 0).Smooth :=
  have h : nextError (Rounded.u NR) (nextError (Rounded.u NR) (Rounded.u NR + Rounded.η NR)) < 1 := by
    rw [nextError_zero, nextError_zero, NR.no_error]; exact one_pos
  ⟨C84_asinh (NR.accurate (fun _ => rfl) _) h, asinhSpec_smooth le_rfl le_rfl le_rfl h⟩

example : Implements1 (MF1.wrapDef .atanh : WrapDef NR) (atanhSpec (Rounded.u NR) (Rounded.η NR) (1 / 2) 0) ∧
    (atanhSpec (Rounded.u NR) (Rounded.η NR) (1 / 2) 0).Smooth :=
  have h : nextError (Rounded.u NR) (squareRel (Rounded.u NR) (Rounded.η NR) (1 / 2)) < 1 := by
    rw [nextError_zero, squareRel_zero]; exact one_pos
  ⟨C84_atanh (by norm_num) (by norm_num) (NR.accurate_on fun x hx => if_pos
      ⟨by linarith [(abs_le.1 hx).1], by linarith [(abs_le.1 hx).2]⟩) h,
    atanhSpec_smooth le_rfl le_rfl (by norm_num) (by norm_num) le_rfl h⟩

example : Implements1 (MF1.wrapDef .asin : WrapDef NR) (asinSpec (Rounded.u NR) (Rounded.η NR) (1 / 2) 0) ∧
    (asinSpec (Rounded.u NR) (Rounded.η NR) (1 / 2) 0).Smooth :=
  have h : nextError (Rounded.u NR) (nextError (Rounded.u NR) (squareRel (Rounded.u NR) (Rounded.η NR) (1 / 2))) < 1 := by
    rw [nextError_zero, nextError_zero, squareRel_zero]; exact one_pos
  ⟨C84_asin (by norm_num) (by norm_num) (NR.accurate_on fun x hx => if_pos
      ⟨by linarith [(abs_le.1 hx).1], by linarith [(abs_le.1 hx).2]⟩) h,
    asinSpec_smooth le_rfl le_rfl (by norm_num) (by norm_num) le_rfl h⟩

example : Implements1 (MF1.wrapDef .acos : WrapDef NR) (acosSpec (Rounded.u NR) (Rounded.η NR) (1 / 2) 0) ∧
    (acosSpec (Rounded.u NR) (Rounded.η NR) (1 / 2) 0).Smooth :=
  have h : nextError (Rounded.u NR) (nextError (Rounded.u NR) (squareRel (Rounded.u NR) (Rounded.η NR) (1 / 2))) < 1 := by
    rw [nextError_zero, nextError_zero, squareRel_zero]; exact one_pos
  ⟨C84_acos (by norm_num) (by norm_num) (NR.accurate_on fun x hx => if_pos
      ⟨by linarith [(abs_le.1 hx).1], by linarith [(abs_le.1 hx).2]⟩) h,
    acosSpec_smooth le_rfl le_rfl (by norm_num) (by norm_num) le_rfl h⟩

example : Implements1 (MF1.wrapDef .acosh : WrapDef NR) (acoshSpec (Rounded.u NR) (Rounded.η NR) 2 0) ∧
    (acoshSpec (Rounded.u NR) (Rounded.η NR) 2 0).Smooth :=
  have h : nextError (Rounded.u NR) (nextError (Rounded.u NR) (squareRel' (Rounded.u NR) (Rounded.η NR) 2)) < 1 := by
    rw [nextError_zero, nextError_zero, squareRel'_zero]; exact one_pos
  ⟨C84_acosh (by norm_num) (NR.accurate_on fun x hx => if_pos (by linarith [hx.1])) h,
    acoshSpec_smooth le_rfl le_rfl (by norm_num) le_rfl h⟩

example : Implements1 (MF1.wrapDef .log1p : WrapDef NR) (log1pSpec (Rounded.u NR) (Rounded.η NR) 0 0) ∧
    (log1pSpec (Rounded.u NR) (Rounded.η NR) 0 0).Smooth :=
  ⟨C84_log1p (by norm_num) (NR.accurate_on fun x hx => if_pos (by linarith [hx.1])) RoundedSign.u_lt_one,
    log1pSpec_smooth le_rfl le_rfl (by norm_num) le_rfl RoundedSign.u_lt_one⟩

example : Implements1 (MF1.wrapDef .log10 : WrapDef NR) (log10Spec (Rounded.u NR) (Rounded.η NR) 1 0 0) ∧
    (log10Spec (Rounded.u NR) (Rounded.η NR) 1 0 0).Smooth := by
  refine ⟨C84_log10 one_pos one_pos (NR.accurate_on fun x hx => if_pos (one_pos.trans_le hx)) fun l hl => ?_,
    log10Spec_smooth le_rfl le_rfl one_pos le_rfl le_rfl one_pos⟩
  have : (PyOps.log (PyMath.ten : NR)) = .ok (.fin (Real.log 10)) := nr_log (by norm_num)
  rw [this] at hl
  cases hl
  exact ⟨trivial, by simp [Rounded.val, NR.real]⟩

example : Implements1 (MF1.wrapDef .fabs : WrapDef NR) (fabsSpec 1 0) ∧ (fabsSpec 1 0).Smooth :=
  ⟨C84_fabs one_pos (NR.accurate (fun _ => rfl) _), fabsSpec_smooth one_pos le_rfl⟩

/-! The rounding errors of double precision numbers satisfy the hypotheses. -/

theorem B64.small_errors : Rounded.u B64 ≤ 1 / 100 ∧ Rounded.η B64 ≤ 1 / 100 := by
  have h : (2 : ℝ)⁻¹ ^ 7 ≤ 1 / 100 := by norm_num
  exact ⟨(pow_le_pow_of_le_one (by norm_num) (by norm_num) (by norm_num : 7 ≤ 53)).trans h,
    (pow_le_pow_of_le_one (by norm_num) (by norm_num) (by norm_num : 7 ≤ 1075)).trans h⟩

theorem nextError_mono {u ρ u' ρ' : ℝ} (hu : 0 ≤ u) (hρ : 0 ≤ ρ) (h1 : u ≤ u') (h2 : ρ ≤ ρ') : nextError u ρ ≤ nextError u' ρ' := by
  unfold nextError
  gcongr
  linarith

example : nextError (Rounded.u B64) (nextError (Rounded.u B64) (Rounded.u B64 + Rounded.η B64)) < 1 := by
  obtain ⟨h1, h2⟩ := B64.small_errors
  have hu : 0 ≤ Rounded.u B64 := Rounded.u_nonneg
  have hη : 0 ≤ Rounded.η B64 := Rounded.η_nonneg
  generalize Rounded.u B64 = u at *
  generalize Rounded.η B64 = η at *
  refine lt_of_le_of_lt (nextError_mono hu (nextError_nonneg hu (by positivity)) h1
    (nextError_mono hu (by positivity) h1 (add_le_add h1 h2))) ?_
  norm_num [nextError]

/-- For numbers between -0.9 and 0.9. -/
example : nextError (Rounded.u B64) (nextError (Rounded.u B64) (squareRel (Rounded.u B64) (Rounded.η B64) (9 / 10))) < 1 := by
  obtain ⟨h1, h2⟩ := B64.small_errors
  have hu : 0 ≤ Rounded.u B64 := Rounded.u_nonneg
  have hη : 0 ≤ Rounded.η B64 := Rounded.η_nonneg
  generalize Rounded.u B64 = u at *
  generalize Rounded.η B64 = η at *
  have h3 : squareRel u η (9 / 10) ≤ 1 / 10 := by
    unfold squareRel
    rw [div_le_iff₀ (by norm_num)]
    nlinarith
  have h4 := squareRel_nonneg hu hη (by norm_num : (9 / 10 : ℝ) ^ 2 < 1)
  refine lt_of_le_of_lt (nextError_mono hu (nextError_nonneg hu h4) h1 (nextError_mono hu h4 h1 h3)) ?_
  norm_num [nextError]

end Unc
