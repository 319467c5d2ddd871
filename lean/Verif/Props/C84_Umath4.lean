import Verif.Props.C84_Umath3
import Verif.Props.C84_Power
import Verif.Lemmas.DerivMath2

/-
C84: other functions of `umath` that satisfy the hypotheses of the theorems on calculations: `erf`, `erfc`, and the functions of two
arguments `hypot`, `atan2` and `copysign`.
-/

namespace Unc

set_option autoImplicit false

/-! ### The error function -/

/-- `2/sqrt(pi)` -/
noncomputable def erfFactor : ℝ := 2 / √Real.pi

theorem erfFactor_pos : 0 < erfFactor := div_pos two_pos (Real.sqrt_pos.2 Real.pi_pos)

/-- Error on the exponent `-x**2`, between `-b` and `b`. -/
noncomputable def exponentError (u η b : ℝ) : ℝ := u * b ^ 2 + η

/-- Error on `exp(-x**2)`, if the exponential is calculated with the accuracy `δ`. -/
noncomputable def gaussianError (u η b δ : ℝ) : ℝ := δ + Real.exp (exponentError u η b) * exponentError u η b

/-- The error function, between `-b` and `b`. The exponential is calculated with the accuracy `δ`, and the constant `2/sqrt(pi)`
with the accuracy `κ`. -/
noncomputable def erfSpec (u η b ε δ κ : ℝ) : FnSpec1 where
  g := NR.erfReal
  d := fun x => Real.exp (-x ^ 2) * erfFactor
  dom := fun x => |x| ≤ b
  lip := erfFactor
  dlip := 2 * b * erfFactor
  acc := ε
  dacc := productErr u η (gaussianError u η b δ) κ
where
  /-- error on the product of `exp(-x**2)`, which is less than 1, and the constant -/
  productErr (u η w κ : ℝ) : ℝ := w * (erfFactor + κ) + κ + u * ((1 + w) * (erfFactor + κ)) + η

/-- The complementary error function. -/
noncomputable def erfcSpec (u η b ε δ κ : ℝ) : FnSpec1 :=
  { erfSpec u η b ε δ κ with g := fun x => 1 - NR.erfReal x, d := fun x => -Real.exp (-x ^ 2) * erfFactor }

theorem erf_deriv' (x : ℝ) : HasDerivAt NR.erfReal (Real.exp (-x ^ 2) * erfFactor) x := by
  rw [mul_comm]
  exact erf_hasDerivAt x

theorem exp_neg_sq_le (x : ℝ) : Real.exp (-x ^ 2) ≤ 1 := by
  rw [Real.exp_le_one_iff]
  linarith [sq_nonneg x]

theorem abs_erf_deriv_le (x : ℝ) : |Real.exp (-x ^ 2) * erfFactor| ≤ erfFactor := by
  have h := erfFactor_pos
  rw [abs_of_pos (by positivity)]
  exact mul_le_of_le_one_left h.le (exp_neg_sq_le x)

theorem erf_dlip {b x y : ℝ} (hx : |x| ≤ b) (hy : |y| ≤ b) :
    |Real.exp (-x ^ 2) * erfFactor - Real.exp (-y ^ 2) * erfFactor| ≤ 2 * b * erfFactor * |x - y| := by
  have hp := erfFactor_pos
  refine lip_of_deriv (f := fun x => Real.exp (-x ^ 2) * erfFactor) (f' := fun x => Real.exp (-x ^ 2) * (-(2 * x)) * erfFactor)
    (convex_abs_le b) (fun x _ => ?_) (fun x hx => ?_) hx hy
  · have h : HasDerivAt (fun x : ℝ => -x ^ 2) (-(2 * x)) x := by
      have : HasDerivAt (fun x : ℝ => -x ^ 2) (-(((2 : ℕ) : ℝ) * x ^ (2 - 1))) x := (hasDerivAt_pow 2 x).neg
      exact this.congr_deriv (by simp)
    exact h.exp.mul_const _
  · have hx : |x| ≤ b := hx
    rw [abs_mul, abs_mul, abs_neg, abs_mul, abs_two, abs_of_pos hp, abs_of_pos (Real.exp_pos _)]
    refine mul_le_mul_of_nonneg_right ?_ hp.le
    calc Real.exp (-x ^ 2) * (2 * |x|) ≤ 1 * (2 * b) :=
          mul_le_mul (exp_neg_sq_le x) (by linarith) (by positivity) zero_le_one
      _ = 2 * b := one_mul _

theorem gaussianError_nonneg {u η b δ : ℝ} (hu : 0 ≤ u) (hη : 0 ≤ η) (hδ : 0 ≤ δ) : 0 ≤ gaussianError u η b δ := by
  unfold gaussianError exponentError
  positivity

theorem erfSpec_smooth {u η b ε δ κ : ℝ} (hu : 0 ≤ u) (hη : 0 ≤ η) (hb : 0 ≤ b) (hε : 0 ≤ ε) (hδ : 0 ≤ δ) (hκ : 0 ≤ κ) :
    (erfSpec u η b ε δ κ).Smooth := by
  have hp := erfFactor_pos
  have hw := gaussianError_nonneg (b := b) hu hη hδ
  refine ⟨fun x _ => erf_deriv' x, fun x y _ _ => ?_, fun x y hx hy => erf_dlip hx hy, hp.le,
    by show 0 ≤ 2 * b * erfFactor; positivity, hε, by simp only [erfSpec, erfSpec.productErr]; positivity⟩
  exact lip_of_deriv convex_univ (fun x _ => erf_deriv' x) (fun x _ => abs_erf_deriv_le x) (Set.mem_univ _) (Set.mem_univ _)

theorem erfcSpec_smooth {u η b ε δ κ : ℝ} (hu : 0 ≤ u) (hη : 0 ≤ η) (hb : 0 ≤ b) (hε : 0 ≤ ε) (hδ : 0 ≤ δ) (hκ : 0 ≤ κ) :
    (erfcSpec u η b ε δ κ).Smooth := by
  have h := erfSpec_smooth (b := b) (ε := ε) hu hη hb hε hδ hκ
  refine ⟨fun x _ => ?_, fun x y hx hy => ?_, fun x y hx hy => ?_, h.lip_nonneg, h.dlip_nonneg, hε, h.dacc_nonneg⟩
  · have := (erf_deriv' x).const_sub 1
    exact this.congr_deriv (by simp [erfcSpec])
  · have := h.lip x y hx hy
    show |(1 - NR.erfReal x) - (1 - NR.erfReal y)| ≤ _
    rw [sub_sub_sub_cancel_left, abs_sub_comm]
    exact this
  · have := erf_dlip hx hy
    show |-Real.exp (-x ^ 2) * erfFactor - -Real.exp (-y ^ 2) * erfFactor| ≤ _
    rw [neg_mul, neg_mul, neg_sub_neg, abs_sub_comm]
    exact this

section
variable {F : Type} [PyMath F] [RoundedOps F]

/-- Calculation of `exp(-x**2)`. -/
theorem gaussian_fl {b δ : ℝ} (he : Accurate F .exp Real.exp (fun x => x ≤ exponentError (Rounded.u F) (Rounded.η F) b) δ) {x q e : F}
    (hd : |Rounded.val x| ≤ b) (h1 : PyFloat.sq x = .ok q) (hq : Rounded.Fin (-q)) (h2 : PyMath.fn1 .exp (-q) = .ok e)
    (hf : Rounded.Fin e) : |Rounded.val e - Real.exp (-Rounded.val x ^ 2)| ≤ gaussianError (Rounded.u F) (Rounded.η F) b δ := by
  obtain ⟨hfq, vn⟩ := RoundedOps.neg q hq
  obtain ⟨-, i1⟩ := Rounded.sq x q h1 hfq
  have hu : 0 ≤ Rounded.u F := Rounded.u_nonneg
  have hx2 : Rounded.val x ^ 2 ≤ b ^ 2 := sq_le_sq.2 (by rw [abs_of_nonneg ((abs_nonneg _).trans hd)]; exact hd)
  have i2 : |Rounded.val q - Rounded.val x ^ 2| ≤ exponentError (Rounded.u F) (Rounded.η F) b := by
    refine i1.trans ?_
    have := mul_le_mul_of_nonneg_left hx2 hu
    unfold exponentError
    linarith
  have hle : -Rounded.val q ≤ exponentError (Rounded.u F) (Rounded.η F) b := by
    have := (abs_le.1 i2).1
    linarith [sq_nonneg (Rounded.val x)]
  have ht : 0 ≤ exponentError (Rounded.u F) (Rounded.η F) b := (abs_nonneg _).trans i2
  have i3 := he (-q) e hq (by rw [vn]; exact hle) h2 hf
  rw [vn] at i3
  have i4 : |Real.exp (-Rounded.val q) - Real.exp (-Rounded.val x ^ 2)| ≤
      Real.exp (exponentError (Rounded.u F) (Rounded.η F) b) * |-Rounded.val q - -Rounded.val x ^ 2| :=
    (expSpec_smooth (b := exponentError (Rounded.u F) (Rounded.η F) b) le_rfl).lip _ _ hle
      (by show -Rounded.val x ^ 2 ≤ _; linarith [sq_nonneg (Rounded.val x)])
  rw [neg_sub_neg, abs_sub_comm (Rounded.val x ^ 2)] at i4
  have i5 := i4.trans (mul_le_mul_of_nonneg_left i2 (Real.exp_pos _).le)
  have e1 : Rounded.val e - Real.exp (-Rounded.val x ^ 2) = (Rounded.val e - Real.exp (-Rounded.val q)) +
      (Real.exp (-Rounded.val q) - Real.exp (-Rounded.val x ^ 2)) := by ring
  rw [e1]
  exact (abs_add_le _ _).trans (add_le_add i3 i5)

theorem erf_product {u η w κ E K e k c : ℝ} (hu : 0 ≤ u) (hE0 : 0 ≤ E) (hE : E ≤ 1) (hK : 0 ≤ K) (he : |e - E| ≤ w) (hk : |k - K| ≤ κ)
    (hc : |c - e * k| ≤ u * |e * k| + η) : |c - E * K| ≤ w * (K + κ) + κ + u * ((1 + w) * (K + κ)) + η := by
  have hw : 0 ≤ w := (abs_nonneg _).trans he
  have hκ : 0 ≤ κ := (abs_nonneg _).trans hk
  have hk' : |k| ≤ K + κ := by
    have e1 : k = K + (k - K) := by ring
    rw [e1]
    refine (abs_add_le _ _).trans ?_
    rw [abs_of_nonneg hK]
    linarith
  have he' : |e| ≤ 1 + w := by
    have e1 : e = E + (e - E) := by ring
    rw [e1]
    refine (abs_add_le _ _).trans ?_
    rw [abs_of_nonneg hE0]
    linarith
  have e2 : c - E * K = (c - e * k) + ((e - E) * k + E * (k - K)) := by ring
  rw [e2]
  refine (abs_add_le _ _).trans ?_
  have i1 : |(e - E) * k + E * (k - K)| ≤ w * (K + κ) + κ := by
    refine (abs_add_le _ _).trans (add_le_add ?_ ?_)
    · rw [abs_mul]
      exact mul_le_mul he hk' (abs_nonneg _) hw
    · rw [abs_mul, abs_of_nonneg hE0]
      exact (mul_le_mul hE hk (abs_nonneg _) zero_le_one).trans (by linarith)
  have i2 : |e * k| ≤ (1 + w) * (K + κ) := by
    rw [abs_mul]
    exact mul_le_mul he' hk' (abs_nonneg _) (by linarith)
  have := mul_le_mul_of_nonneg_left i2 hu
  linarith

/-- **C84**: `umath.erf`. -/
theorem C84_erf {b ε δ κ : ℝ} (hv : Accurate F .erf NR.erfReal (fun x => |x| ≤ b) ε)
    (he : Accurate F .exp Real.exp (fun x => x ≤ exponentError (Rounded.u F) (Rounded.η F) b) δ)
    (hn : ∀ (x : F), Rounded.Fin x → Rounded.Fin (-x))
    (hk : |Rounded.val (PyMath.erfCoef : F) - erfFactor| ≤ κ) :
    Implements1 (MF1.wrapDef .erf : WrapDef F) (erfSpec (Rounded.u F) (Rounded.η F) b ε δ κ) := by
  refine ⟨fun x y hx hd hy hf => hv x y hx hd (mapFlt_ok hy) hf, fun x c hx hd h hf => ?_⟩
  obtain ⟨q, h2, h3⟩ := bindRes_ok (nanIfException_fin
    (r := do let x2 ← PyFloat.sq x; let e ← PyMath.fn1 .exp (-x2); .ok (e * PyMath.erfCoef)) h hf)
  obtain ⟨e, h4, h5⟩ := bindRes_ok h3
  cases h5
  obtain ⟨hfe, -, i⟩ := Rounded.mul e PyMath.erfCoef hf
  have j := gaussian_fl he hd h2 (hn q (RoundedOps.sq_fin x q h2 hx)) h4 hfe
  exact erf_product Rounded.u_nonneg (Real.exp_pos _).le (exp_neg_sq_le _) erfFactor_pos.le j hk i

/-- **C84**: `umath.erfc`. -/
theorem C84_erfc {b ε δ κ : ℝ} (hv : Accurate F .erfc (fun x => 1 - NR.erfReal x) (fun x => |x| ≤ b) ε)
    (he : Accurate F .exp Real.exp (fun x => x ≤ exponentError (Rounded.u F) (Rounded.η F) b) δ)
    (hn : ∀ (x : F), Rounded.Fin x → Rounded.Fin (-x))
    (hk : |Rounded.val (PyMath.erfCoef : F) - erfFactor| ≤ κ) :
    Implements1 (MF1.wrapDef .erfc : WrapDef F) (erfcSpec (Rounded.u F) (Rounded.η F) b ε δ κ) := by
  refine ⟨fun x y hx hd hy hf => hv x y hx hd (mapFlt_ok hy) hf, fun x c hx hd h hf => ?_⟩
  obtain ⟨q, h2, h3⟩ := bindRes_ok (nanIfException_fin
    (r := do let x2 ← PyFloat.sq x; let e ← PyMath.fn1 .exp (-x2); .ok (-e * PyMath.erfCoef)) h hf)
  obtain ⟨e, h4, h5⟩ := bindRes_ok h3
  cases h5
  obtain ⟨hfe, -, i⟩ := Rounded.mul (-e) PyMath.erfCoef hf
  obtain ⟨hfe', ve⟩ := RoundedOps.neg e hfe
  rw [ve, neg_mul, abs_neg, sub_neg_eq_add] at i
  have j := gaussian_fl he hd h2 (hn q (RoundedOps.sq_fin x q h2 hx)) h4 hfe'
  have i' : |-Rounded.val (-e * (PyMath.erfCoef : F)) - Rounded.val e * Rounded.val (PyMath.erfCoef : F)| ≤
      Rounded.u F * |Rounded.val e * Rounded.val (PyMath.erfCoef : F)| + Rounded.η F := by
    rw [← abs_neg, neg_sub, sub_neg_eq_add, add_comm]
    exact i
  have := erf_product Rounded.u_nonneg (Real.exp_pos _).le (exp_neg_sq_le _) erfFactor_pos.le j hk i'
  show |Rounded.val (-e * (PyMath.erfCoef : F)) - -Real.exp (-Rounded.val x ^ 2) * erfFactor| ≤ _
  have e3 : Rounded.val (-e * (PyMath.erfCoef : F)) - -Real.exp (-Rounded.val x ^ 2) * erfFactor =
      -(-Rounded.val (-e * (PyMath.erfCoef : F)) - Real.exp (-Rounded.val x ^ 2) * erfFactor) := by ring
  rw [e3, abs_neg]
  exact this

end

example : Implements1 (MF1.wrapDef .erf : WrapDef NR) (erfSpec (Rounded.u NR) (Rounded.η NR) 2 0 0 0) ∧
    (erfSpec (Rounded.u NR) (Rounded.η NR) 2 0 0 0).Smooth :=
  ⟨C84_erf (NR.accurate (fun _ => rfl) _) (NR.accurate (fun _ => rfl) _)
      (fun x hx => by cases x <;> first | exact hx.elim | trivial)
      (by show |erfFactor - erfFactor| ≤ 0; simp), erfSpec_smooth le_rfl le_rfl (by norm_num) le_rfl le_rfl le_rfl⟩

example : Implements1 (MF1.wrapDef .erfc : WrapDef NR) (erfcSpec (Rounded.u NR) (Rounded.η NR) 2 0 0 0) ∧
    (erfcSpec (Rounded.u NR) (Rounded.η NR) 2 0 0 0).Smooth :=
  ⟨C84_erfc (NR.accurate (fun _ => rfl) _) (NR.accurate (fun _ => rfl) _)
      (fun x hx => by cases x <;> first | exact hx.elim | trivial)
      (by show |erfFactor - erfFactor| ≤ 0; simp), erfcSpec_smooth le_rfl le_rfl (by norm_num) le_rfl le_rfl le_rfl⟩

/-! ### `hypot` -/

/-- `hypot(x, y)`, where its value is between `r` and `R`. -/
noncomputable def hypotSpec (u η r R ε : ℝ) : FnSpec2 where
  g := fun x y => √(x ^ 2 + y ^ 2)
  d0 := fun x y => x / √(x ^ 2 + y ^ 2)
  d1 := fun x y => y / √(x ^ 2 + y ^ 2)
  dom := fun x y => r ≤ √(x ^ 2 + y ^ 2) ∧ √(x ^ 2 + y ^ 2) ≤ R
  lip0 := 1
  lip1 := 1
  d0lip0 := 2 / r
  d0lip1 := 1 / r
  d1lip0 := 1 / r
  d1lip1 := 2 / r
  acc := ε
  dacc0 := divisorError u (ε / r) + η
  dacc1 := divisorError u (ε / r) + η

theorem abs_le_hypot (x y : ℝ) : |x| ≤ √(x ^ 2 + y ^ 2) := Real.abs_le_sqrt (by linarith [sq_nonneg y])

theorem hypot_le_add (x y : ℝ) : √(x ^ 2 + y ^ 2) ≤ |x| + |y| := by
  rw [Real.sqrt_le_left (by positivity)]
  have : (|x| + |y|) ^ 2 = x ^ 2 + y ^ 2 + 2 * (|x| * |y|) := by
    rw [add_sq, sq_abs, sq_abs]; ring
  rw [this]
  have : 0 ≤ |x| * |y| := by positivity
  linarith

/-- Triangle inequality. -/
theorem hypot_lip (x y x' y' : ℝ) : |√(x ^ 2 + y ^ 2) - √(x' ^ 2 + y' ^ 2)| ≤ |x - x'| + |y - y'| := by
  have key : ∀ a b a' b' : ℝ, √(a ^ 2 + b ^ 2) - √(a' ^ 2 + b' ^ 2) ≤ |a - a'| + |b - b'| := by
    intro a b a' b'
    refine le_trans ?_ (hypot_le_add (a - a') (b - b'))
    rw [sub_le_iff_le_add', Real.sqrt_le_left (by positivity)]
    have h1 := Real.sq_sqrt (by positivity : 0 ≤ a' ^ 2 + b' ^ 2)
    have h2 := Real.sq_sqrt (by positivity : 0 ≤ (a - a') ^ 2 + (b - b') ^ 2)
    have h3 : a' * (a - a') + b' * (b - b') ≤ √(a' ^ 2 + b' ^ 2) * √((a - a') ^ 2 + (b - b') ^ 2) := by
      rw [← Real.sqrt_mul (by positivity)]
      refine Real.le_sqrt_of_sq_le ?_
      nlinarith [sq_nonneg (a' * (b - b') - b' * (a - a'))]
    rw [add_sq, h1, h2]
    nlinarith
  rw [abs_le]
  constructor
  · have := key x' y' x y
    rw [abs_sub_comm x', abs_sub_comm y'] at this
    linarith
  · exact key x y x' y'

/-- `x/hypot(x, y)` -/
theorem hypot_dlip {r x y x' y' : ℝ} (hr : 0 < r) (h : r ≤ √(x ^ 2 + y ^ 2)) (h' : r ≤ √(x' ^ 2 + y' ^ 2)) :
    |x / √(x ^ 2 + y ^ 2) - x' / √(x' ^ 2 + y' ^ 2)| ≤ 2 / r * |x - x'| + 1 / r * |y - y'| := by
  have hl := hypot_lip x y x' y'
  have ha := abs_le_hypot x' y'
  generalize √(x ^ 2 + y ^ 2) = A at *
  generalize √(x' ^ 2 + y' ^ 2) = B at *
  have pA : 0 < A := hr.trans_le h
  have pB : 0 < B := hr.trans_le h'
  have e : x / A - x' / B = (x - x') / A + x' / B * ((B - A) / A) := by field_simp; ring
  have i1 : |(x - x') / A| ≤ |x - x'| / r := by
    rw [abs_div, abs_of_pos pA]
    exact div_le_div_of_nonneg_left (abs_nonneg _) hr h
  have i2 : |x' / B * ((B - A) / A)| ≤ (|x - x'| + |y - y'|) / r := by
    rw [abs_mul]
    have j1 : |x' / B| ≤ 1 := by rw [abs_div, abs_of_pos pB]; exact (div_le_one pB).2 ha
    have j2 : |(B - A) / A| ≤ (|x - x'| + |y - y'|) / r := by
      rw [abs_div, abs_of_pos pA, abs_sub_comm]
      exact div_le_div₀ (by positivity) hl hr h
    calc |x' / B| * |(B - A) / A| ≤ 1 * ((|x - x'| + |y - y'|) / r) := mul_le_mul j1 j2 (abs_nonneg _) zero_le_one
      _ = _ := one_mul _
  rw [e]
  refine (abs_add_le _ _).trans ((add_le_add i1 i2).trans (le_of_eq ?_))
  field_simp
  ring

theorem hypotSpec_smooth {u η r R ε : ℝ} (hu : 0 ≤ u) (hη : 0 ≤ η) (hr : 0 < r) (hε : 0 ≤ ε) (h1 : ε / r < 1) :
    (hypotSpec u η r R ε).Smooth := by
  have hE := divisorError_nonneg hu (by positivity : 0 ≤ ε / r) h1
  have p1 : (0 : ℝ) ≤ 1 / r := by positivity
  have p2 : (0 : ℝ) ≤ 2 / r := by positivity
  refine ⟨fun x y h => ?_, fun x y x' y' _ _ => ?_, fun x y x' y' h h' => hypot_dlip hr h.1 h'.1, fun x y x' y' h h' => ?_,
    ⟨zero_le_one, zero_le_one⟩, ⟨p2, p1⟩, ⟨p1, p2⟩, hε, ⟨add_nonneg hE hη, add_nonneg hE hη⟩⟩
  · have hp : 0 < √(x ^ 2 + y ^ 2) := hr.trans_le h.1
    have hs : x ^ 2 + y ^ 2 ≠ 0 := fun h0 => by rw [h0, Real.sqrt_zero] at hp; exact lt_irrefl _ hp
    have f1 : HasFDerivAt (fun p : ℝ × ℝ => p.1 ^ 2 + p.2 ^ 2)
        ((2 * x) • ContinuousLinearMap.fst ℝ ℝ ℝ + (2 * y) • ContinuousLinearMap.snd ℝ ℝ ℝ) (x, y) := by
      have a := (hasDerivAt_pow 2 x).comp_hasFDerivAt (x, y) (hasFDerivAt_fst (𝕜 := ℝ) (p := (x, y)))
      have b := (hasDerivAt_pow 2 y).comp_hasFDerivAt (x, y) (hasFDerivAt_snd (𝕜 := ℝ) (p := (x, y)))
      have := a.add b
      refine this.congr_fderiv ?_
      simp
    have f2 := (Real.hasDerivAt_sqrt hs).comp_hasFDerivAt (x, y) f1
    refine f2.congr_fderiv ?_
    refine ContinuousLinearMap.ext fun v => ?_
    simp [hypotSpec]
    field_simp
  · have := hypot_lip x y x' y'
    show _ ≤ 1 * |x - x'| + 1 * |y - y'|
    rw [one_mul, one_mul]
    exact this
  · have e : ∀ a b : ℝ, a ^ 2 + b ^ 2 = b ^ 2 + a ^ 2 := fun a b => add_comm _ _
    have := hypot_dlip (x := y) (y := x) (x' := y') (y' := x') hr (by rw [e]; exact h.1) (by rw [e]; exact h'.1)
    show |y / √(x ^ 2 + y ^ 2) - y' / √(x' ^ 2 + y' ^ 2)| ≤ 1 / r * |x - x'| + 2 / r * |y - y'|
    rw [e x y, e x' y', add_comm (1 / r * _)]
    exact this

/-! ### `atan2` -/

/-- `atan2(y, x)`, for points at the right of the line of abscissa `r`. -/
noncomputable def atan2Spec (u η r ε : ℝ) : FnSpec2 where
  g := fun y x => Real.arctan (y / x)
  d0 := fun y x => x / (x ^ 2 + y ^ 2)
  d1 := fun y x => -y / (x ^ 2 + y ^ 2)
  dom := fun y x => r ≤ x ∧ x ^ 2 + y ^ 2 ≤ moderate ^ 2
  lip0 := 1 / r
  lip1 := 1 / r
  d0lip0 := 1 / r ^ 2
  d0lip1 := 1 / r ^ 2
  d1lip0 := 1 / r ^ 2
  d1lip1 := 1 / r ^ 2
  acc := ε
  dacc0 := divisorError u (nextError u (u + 2 * η / r ^ 2)) * (1 / r) + η
  dacc1 := divisorError u (nextError u (u + 2 * η / r ^ 2)) * (1 / r) + η

theorem atan2_hasFDerivAt {y x : ℝ} (hx : 0 < x) : HasFDerivAt (fun p : ℝ × ℝ => Real.arctan (p.1 / p.2))
    ((x / (x ^ 2 + y ^ 2)) • ContinuousLinearMap.fst ℝ ℝ ℝ + (-y / (x ^ 2 + y ^ 2)) • ContinuousLinearMap.snd ℝ ℝ ℝ) (y, x) := by
  have a := (hasDerivAt_inv hx.ne').comp_hasFDerivAt (y, x) (hasFDerivAt_snd (𝕜 := ℝ) (p := (y, x)))
  have b := (hasFDerivAt_fst (𝕜 := ℝ) (p := (y, x))).mul a
  have c := (Real.hasDerivAt_arctan (y * x⁻¹)).comp_hasFDerivAt (y, x) b
  have e : (fun p : ℝ × ℝ => Real.arctan (p.1 / p.2)) = Real.arctan ∘ (Prod.fst * ((fun x => x⁻¹) ∘ Prod.snd)) := by
    funext p
    simp [div_eq_mul_inv]
  rw [e]
  refine c.congr_fderiv ?_
  refine ContinuousLinearMap.ext fun v => ?_
  have : 0 < x ^ 2 + y ^ 2 := by positivity
  simp
  field_simp
  ring

theorem atan2_partial0 {y x : ℝ} (hx : 0 < x) : HasDerivAt (fun y => Real.arctan (y / x)) (x / (x ^ 2 + y ^ 2)) y := by
  have := ((hasDerivAt_id y).div_const x).arctan
  refine this.congr_deriv ?_
  have : 0 < x ^ 2 + y ^ 2 := by positivity
  simp only [id]
  field_simp

theorem atan2_partial1 {y x : ℝ} (hx : 0 < x) : HasDerivAt (fun x => Real.arctan (y / x)) (-y / (x ^ 2 + y ^ 2)) x := by
  have h : HasDerivAt (fun x : ℝ => y / x) (-y / x ^ 2) x := by
    have := (hasDerivAt_inv hx.ne').const_mul y
    have e : (fun x : ℝ => y / x) = fun x => y * x⁻¹ := by funext x; rw [div_eq_mul_inv]
    rw [e]
    exact this.congr_deriv (by field_simp)
  refine h.arctan.congr_deriv ?_
  have : 0 < x ^ 2 + y ^ 2 := by positivity
  field_simp

theorem sum_sq_ge {r x y : ℝ} (hr : 0 < r) (hx : r ≤ x) : r ^ 2 ≤ x ^ 2 + y ^ 2 := by nlinarith [sq_nonneg y]

theorem atan2_bound0 {r y x : ℝ} (hr : 0 < r) (hx : r ≤ x) : |x / (x ^ 2 + y ^ 2)| ≤ 1 / r := by
  have px : 0 < x := hr.trans_le hx
  have pD : 0 < x ^ 2 + y ^ 2 := by positivity
  rw [abs_of_pos (by positivity), div_le_div_iff₀ pD hr]
  nlinarith [sq_nonneg y]

theorem atan2_bound1 {r y x : ℝ} (hr : 0 < r) (hx : r ≤ x) : |-y / (x ^ 2 + y ^ 2)| ≤ 1 / r := by
  have px : 0 < x := hr.trans_le hx
  have pD : 0 < x ^ 2 + y ^ 2 := by positivity
  rw [abs_div, abs_of_pos pD, abs_neg, div_le_div_iff₀ pD hr, ← sq_abs y]
  nlinarith [sq_nonneg (x - |y|), abs_nonneg y, sq_nonneg x, sq_nonneg |y|]

theorem atan2_second {r y x N : ℝ} (hr : 0 < r) (hx : r ≤ x) (hN : |N| ≤ x ^ 2 + y ^ 2) : |N / (x ^ 2 + y ^ 2) ^ 2| ≤ 1 / r ^ 2 := by
  have hD := sum_sq_ge (y := y) hr hx
  have pD : 0 < x ^ 2 + y ^ 2 := (by positivity : 0 < r ^ 2).trans_le hD
  rw [abs_div, abs_of_pos (by positivity : 0 < (x ^ 2 + y ^ 2) ^ 2), div_le_div_iff₀ (by positivity) (by positivity)]
  nlinarith

theorem atan2Spec_smooth {u η r ε : ℝ} (hu : 0 ≤ u) (hη : 0 ≤ η) (hr : 0 < r) (hε : 0 ≤ ε)
    (h1 : nextError u (u + 2 * η / r ^ 2) < 1) : (atan2Spec u η r ε).Smooth := by
  have hE := divisorError_nonneg hu (nextError_nonneg hu (by positivity : 0 ≤ u + 2 * η / r ^ 2)) h1
  have p1 : (0 : ℝ) ≤ 1 / r := by positivity
  have p2 : (0 : ℝ) ≤ 1 / r ^ 2 := by positivity
  have pos : ∀ x, x ∈ Set.Ici r → 0 < x := fun x hx => hr.trans_le hx
  have dsq : ∀ x y : ℝ, 0 < x → x ^ 2 + y ^ 2 ≠ 0 := fun x y hx => by positivity
  have dX : ∀ x y : ℝ, HasDerivAt (fun x => x ^ 2 + y ^ 2) (2 * x) x := fun x y => by
    have := (hasDerivAt_pow 2 x).add_const (y ^ 2)
    exact this.congr_deriv (by simp)
  have dY : ∀ x y : ℝ, HasDerivAt (fun y => x ^ 2 + y ^ 2) (2 * y) y := fun x y => by
    have := (hasDerivAt_pow 2 y).const_add (x ^ 2)
    exact this.congr_deriv (by simp)
  refine ⟨fun y x h => atan2_hasFDerivAt (hr.trans_le h.1), fun y x y' x' h h' => ?_, fun y x y' x' h h' => ?_,
    fun y x y' x' h h' => ?_, ⟨p1, p1⟩, ⟨p2, p2⟩, ⟨p2, p2⟩, hε, ⟨add_nonneg (mul_nonneg hE p1) hη, add_nonneg (mul_nonneg hE p1) hη⟩⟩
  · exact lip_of_partials (f := fun y x => Real.arctan (y / x)) (fx := fun y x => x / (x ^ 2 + y ^ 2))
      (fy := fun y x => -y / (x ^ 2 + y ^ 2)) convex_univ (convex_Ici r) (fun y _ x hx => atan2_partial0 (pos x hx))
      (fun y _ x hx => atan2_partial1 (pos x hx)) (fun y _ x hx => atan2_bound0 hr hx) (fun y _ x hx => atan2_bound1 hr hx)
      (Set.mem_univ _) (Set.mem_univ _) h.1 h'.1
  · refine lip_of_partials (f := fun y x => x / (x ^ 2 + y ^ 2)) (fx := fun y x => -(2 * x * y) / (x ^ 2 + y ^ 2) ^ 2)
      (fy := fun y x => (y ^ 2 - x ^ 2) / (x ^ 2 + y ^ 2) ^ 2) convex_univ (convex_Ici r) (fun y _ x hx => ?_)
      (fun y _ x hx => ?_) (fun y _ x hx => atan2_second hr hx ?_) (fun y _ x hx => atan2_second hr hx ?_)
      (Set.mem_univ _) (Set.mem_univ _) h.1 h'.1
    · refine ((hasDerivAt_const y x).div (dY x y) (dsq x y (pos x hx))).congr_deriv ?_
      ring
    · refine ((hasDerivAt_id x).div (dX x y) (dsq x y (pos x hx))).congr_deriv ?_
      simp only [id]
      ring
    · rw [abs_le]; constructor <;> nlinarith [sq_nonneg (x - y), sq_nonneg (x + y)]
    · rw [abs_le]; constructor <;> nlinarith [sq_nonneg x, sq_nonneg y]
  · refine lip_of_partials (f := fun y x => -y / (x ^ 2 + y ^ 2)) (fx := fun y x => (y ^ 2 - x ^ 2) / (x ^ 2 + y ^ 2) ^ 2)
      (fy := fun y x => 2 * x * y / (x ^ 2 + y ^ 2) ^ 2) convex_univ (convex_Ici r) (fun y _ x hx => ?_)
      (fun y _ x hx => ?_) (fun y _ x hx => atan2_second hr hx ?_) (fun y _ x hx => atan2_second hr hx ?_)
      (Set.mem_univ _) (Set.mem_univ _) h.1 h'.1
    · refine (((hasDerivAt_id y).neg).div (dY x y) (dsq x y (pos x hx))).congr_deriv ?_
      simp only [id, Pi.neg_apply]
      ring
    · refine ((hasDerivAt_const x (-y)).div (dX x y) (dsq x y (pos x hx))).congr_deriv ?_
      ring
    · rw [abs_le]; constructor <;> nlinarith [sq_nonneg x, sq_nonneg y]
    · rw [abs_le]; constructor <;> nlinarith [sq_nonneg (x - y), sq_nonneg (x + y)]

/-! ### `copysign` -/

/-- 1 or -1 -/
noncomputable def sign1 (x : ℝ) : ℝ := if 0 < x then 1 else -1

/-- `copysign(x, y)`, where the absolute value of `x` is between `a` and `A`, and that of `y` is not less than `b`. -/
noncomputable def copysignSpec (a A b ε : ℝ) : FnSpec2 where
  g := fun x y => sign1 y * |x|
  d0 := fun x y => sign1 x * sign1 y
  d1 := fun _ _ => 0
  dom := fun x y => (a ≤ |x| ∧ |x| ≤ A) ∧ b ≤ |y|
  lip0 := 1
  lip1 := A / b
  d0lip0 := 1 / a
  d0lip1 := 1 / b
  d1lip0 := 0
  d1lip1 := 0
  acc := ε
  dacc0 := ε
  dacc1 := 0

theorem abs_sign1 (x : ℝ) : |sign1 x| = 1 := by unfold sign1; split <;> simp

theorem sign1_lip {b x y : ℝ} (hb : 0 < b) (hx : b ≤ |x|) (hy : b ≤ |y|) : |sign1 x - sign1 y| ≤ 1 / b * |x - y| :=
  (fabsSpec_smooth hb le_rfl).dlip x y hx hy

theorem copysignSpec_smooth {a A b ε : ℝ} (ha : 0 < a) (hA : 0 ≤ A) (hb : 0 < b) (hε : 0 ≤ ε) : (copysignSpec a A b ε).Smooth := by
  have pa : 0 ≤ 1 / a := by positivity
  have pb : 0 ≤ 1 / b := by positivity
  refine ⟨fun x y h => ?_, fun x y x' y' h h' => ?_, fun x y x' y' h h' => ?_, fun x y x' y' _ _ => ?_,
    ⟨zero_le_one, div_nonneg hA hb.le⟩, ⟨pa, pb⟩, ⟨le_rfl, le_rfl⟩, hε, ⟨hε, le_rfl⟩⟩
  · have hy : y ≠ 0 := abs_pos.1 (hb.trans_le h.2)
    have f1 : HasFDerivAt (fun p : ℝ × ℝ => sign1 y * |p.1|) ((sign1 y * sign1 x) • ContinuousLinearMap.fst ℝ ℝ ℝ) (x, y) := by
      have d := ((fabsSpec_smooth ha le_rfl).deriv x h.1.1).const_mul (sign1 y)
      exact HasDerivAt.comp_hasFDerivAt (h₂ := fun t : ℝ => sign1 y * |t|) (h₂' := sign1 y * sign1 x) (x, y) d
        (hasFDerivAt_fst (𝕜 := ℝ) (p := (x, y)))
    have ev : (fun p : ℝ × ℝ => sign1 p.2 * |p.1|) =ᶠ[nhds (x, y)] fun p => sign1 y * |p.1| := by
      have : ∀ᶠ t in nhds y, sign1 t = sign1 y := by
        rcases lt_or_gt_of_ne hy with h0 | h0
        · filter_upwards [gt_mem_nhds h0] with t ht
          simp [sign1, not_lt.2 ht.le, not_lt.2 h0.le]
        · filter_upwards [lt_mem_nhds h0] with t ht
          simp [sign1, ht, h0]
      have := (continuous_snd (X := ℝ) (Y := ℝ)).continuousAt (x := (x, y)) |>.eventually this
      filter_upwards [this] with p hp
      rw [hp]
    refine (f1.congr_of_eventuallyEq ev).congr_fderiv ?_
    simp [copysignSpec, mul_comm]
  · have i := sign1_lip hb h.2 h'.2
    have e : sign1 y * |x| - sign1 y' * |x'| = sign1 y * (|x| - |x'|) + (sign1 y - sign1 y') * |x'| := by ring
    show |(sign1 y * |x| - sign1 y' * |x'|)| ≤ 1 * |x - x'| + A / b * |y - y'|
    rw [e]
    refine (abs_add_le _ _).trans (add_le_add ?_ ?_)
    · rw [abs_mul, abs_sign1, one_mul, one_mul]
      exact abs_abs_sub_abs_le _ _
    · rw [abs_mul, abs_abs]
      calc |sign1 y - sign1 y'| * |x'| ≤ 1 / b * |y - y'| * A := mul_le_mul i h'.1.2 (abs_nonneg _) (by positivity)
        _ = _ := by ring
  · have i := sign1_lip hb h.2 h'.2
    have j := sign1_lip ha h.1.1 h'.1.1
    have e : sign1 x * sign1 y - sign1 x' * sign1 y' = (sign1 x - sign1 x') * sign1 y + sign1 x' * (sign1 y - sign1 y') := by ring
    show |sign1 x * sign1 y - sign1 x' * sign1 y'| ≤ 1 / a * |x - x'| + 1 / b * |y - y'|
    rw [e]
    refine (abs_add_le _ _).trans (add_le_add ?_ ?_)
    · rw [abs_mul, abs_sign1, mul_one]; exact j
    · rw [abs_mul, abs_sign1, one_mul]; exact i
  · simp [copysignSpec]

/-! ### The functions of `umath` -/

section
variable {F : Type} [PyMath F] [RoundedOps F]

/-- The function `fn` of two arguments of the `math` module calculates `g` with the accuracy `ε`. -/
def Accurate2 (F : Type) [PyMath F] [RoundedOps F] (fn : MF2) (g : ℝ → ℝ → ℝ) (dom : ℝ → ℝ → Prop) (ε : ℝ) : Prop :=
  ∀ x y z : F, Rounded.Fin x → Rounded.Fin y → dom (Rounded.val x) (Rounded.val y) → PyMath.fn2 fn x y = .ok z → Rounded.Fin z →
    |Rounded.val z - g (Rounded.val x) (Rounded.val y)| ≤ ε

/-- **C84**: `umath.hypot`, if the result of `math.hypot` is finite. -/
theorem C84_hypot {r R ε : ℝ} (hr : 0 < r) (hε : 0 ≤ ε) (h1 : ε / r < 1)
    (hv : Accurate2 F .hypot (fun x y => √(x ^ 2 + y ^ 2)) (fun x y => r ≤ √(x ^ 2 + y ^ 2) ∧ √(x ^ 2 + y ^ 2) ≤ R) ε)
    (hfin : ∀ x y z : F, Rounded.Fin x → Rounded.Fin y → √(Rounded.val x ^ 2 + Rounded.val y ^ 2) ≤ R →
      PyMath.fn2 .hypot x y = .ok z → Rounded.Fin z) :
    Implements2 (MF2.wrapDef .hypot : WrapDef F) (hypotSpec (Rounded.u F) (Rounded.η F) r R ε) := by
  have hu : 0 ≤ Rounded.u F := Rounded.u_nonneg
  have hE := divisorError_nonneg hu (by positivity : 0 ≤ ε / r) h1
  have key : ∀ (x y n h c : F), Rounded.Fin x → Rounded.Fin y →
      r ≤ √(Rounded.val x ^ 2 + Rounded.val y ^ 2) ∧ √(Rounded.val x ^ 2 + Rounded.val y ^ 2) ≤ R →
      |Rounded.val n| ≤ √(Rounded.val x ^ 2 + Rounded.val y ^ 2) → PyMath.fn2 .hypot x y = .ok h → PyFloat.truediv n h = .ok c →
      Rounded.Fin c → |Rounded.val c - Rounded.val n / √(Rounded.val x ^ 2 + Rounded.val y ^ 2)| ≤
        divisorError (Rounded.u F) (ε / r) + Rounded.η F := by
    intro x y n h c hx hy hd hn h2 h3 hf
    have hfh := hfin x y h hx hy hd.2 h2
    have i1 := hv x y h hx hy hd h2 hfh
    have pD : 0 < √(Rounded.val x ^ 2 + Rounded.val y ^ 2) := hr.trans_le hd.1
    have i1' : |Rounded.val h - √(Rounded.val x ^ 2 + Rounded.val y ^ 2)| ≤ ε / r * √(Rounded.val x ^ 2 + Rounded.val y ^ 2) := by
      refine i1.trans ?_
      rw [div_mul_eq_mul_div, le_div_iff₀ hr]
      exact mul_le_mul_of_nonneg_left hd.1 hε
    obtain ⟨-, -, i2⟩ := RoundedDiv.div n h c h3 hf hfh
    refine (divisorError_of hu pD h1 i1' i2).trans ?_
    have : |Rounded.val n / √(Rounded.val x ^ 2 + Rounded.val y ^ 2)| ≤ 1 := by
      rw [abs_div, abs_of_pos pD]
      exact (div_le_one pD).2 hn
    have := mul_le_mul_of_nonneg_left this hE
    linarith
  refine ⟨fun x y z hx hy hd h hf => hv x y z hx hy hd (mapFlt_ok h) hf, fun x y c hx hy hd h hf => ?_,
    fun x y c hx hy hd h hf => ?_⟩
  · obtain ⟨v, h2, h3⟩ := bindRes_ok (nanIfException_fin
      (r := do let h ← PyMath.fn2 .hypot x y; PyFloat.truediv x h) h hf)
    exact key x y x v c hx hy hd (abs_le_hypot _ _) h2 h3 hf
  · obtain ⟨v, h2, h3⟩ := bindRes_ok (nanIfException_fin
      (r := do let h ← PyMath.fn2 .hypot x y; PyFloat.truediv y h) h hf)
    exact key x y y v c hx hy hd (by rw [add_comm]; exact abs_le_hypot _ _) h2 h3 hf

/-- **C84**: `umath.copysign`. -/
theorem C84_copysign {a A b ε : ℝ} (ha : 0 < a) (ha1 : a ≤ 1) (hA : 1 ≤ A)
    (hv : Accurate2 F .copysign (fun x y => sign1 y * |x|) (fun x y => (a ≤ |x| ∧ |x| ≤ A) ∧ b ≤ |y|) ε) :
    Implements2 (MF2.wrapDef .copysign : WrapDef F) (copysignSpec a A b ε) := by
  refine ⟨fun x y z hx hy hd h hf => hv x y z hx hy hd (mapFlt_ok h) hf, fun x y c hx hy hd h hf => ?_,
    fun x y c hx hy hd h hf => ?_⟩
  · obtain ⟨s, h2, h3⟩ := bindRes_ok (nanIfException_fin
      (r := do let s ← PyMath.fn2 .copysign 1 y; if geb x 0 then .ok s else .ok (-s)) h hf)
    have h0 : Rounded.val x ≠ 0 := abs_pos.1 (ha.trans_le hd.1.1)
    have he : PyFloat.eqb x 0 = false := by
      cases h3 : PyFloat.eqb x 0 with
      | false => rfl
      | true => exact absurd (Rounded.eqb_zero x h3).2 h0
    have hz := RoundedOps.zero_ltb x hx
    simp only [geb, he, Bool.or_false] at h3
    have key : Rounded.Fin s → |Rounded.val s - sign1 (Rounded.val y)| ≤ ε := fun hs => by
      have := hv 1 y s Rounded.fin_one hy (by simp only [Rounded.val_one, abs_one]; exact ⟨⟨ha1, hA⟩, hd.2⟩) h2 hs
      simpa only [Rounded.val_one, abs_one, mul_one] using this
    show |Rounded.val c - sign1 (Rounded.val x) * sign1 (Rounded.val y)| ≤ ε
    by_cases hp : 0 < Rounded.val x
    · rw [if_pos (hz.2 hp)] at h3
      cases h3
      have : sign1 (Rounded.val x) = 1 := if_pos hp
      rw [this, one_mul]
      exact key hf
    · have hn : PyFloat.ltb 0 x = false := by
        cases h3 : PyFloat.ltb 0 x with
        | false => rfl
        | true => exact absurd (hz.1 h3) hp
      rw [hn] at h3
      cases h3
      obtain ⟨hs, vs⟩ := RoundedOps.neg s hf
      have : sign1 (Rounded.val x) = -1 := if_neg hp
      rw [this, vs, neg_one_mul, neg_sub_neg, abs_sub_comm]
      exact key hs
  · have := nanIfException_fin (r := .ok (0 : F)) h hf
    cases this
    show |Rounded.val (0 : F) - 0| ≤ 0
    rw [Rounded.val_zero, sub_zero, abs_zero]

variable [RoundedRange F]

/-- **C84**: `umath.atan2`, at the right of the vertical axis. -/
theorem C84_atan2 {r ε : ℝ} (hr : 0 < r) (h1 : nextError (Rounded.u F) (Rounded.u F + 2 * Rounded.η F / r ^ 2) < 1)
    (hv : Accurate2 F .atan2 (fun y x => Real.arctan (y / x)) (fun y x => r ≤ x ∧ x ^ 2 + y ^ 2 ≤ moderate ^ 2) ε) :
    Implements2 (MF2.wrapDef .atan2 : WrapDef F) (atan2Spec (Rounded.u F) (Rounded.η F) r ε) := by
  have hu : 0 ≤ Rounded.u F := Rounded.u_nonneg
  have hη : 0 ≤ Rounded.η F := Rounded.η_nonneg
  have hρ : 0 ≤ Rounded.u F + 2 * Rounded.η F / r ^ 2 := by positivity
  have hE := divisorError_nonneg hu (nextError_nonneg hu hρ) h1
  have key : ∀ (y x x2 y2 n c : F), Rounded.Fin y → Rounded.Fin x →
      r ≤ Rounded.val x ∧ Rounded.val x ^ 2 + Rounded.val y ^ 2 ≤ moderate ^ 2 → PyFloat.sq x = .ok x2 → PyFloat.sq y = .ok y2 →
      PyFloat.truediv n (x2 + y2) = .ok c → Rounded.Fin c →
      (Rounded.Fin n → |Rounded.val n / (Rounded.val x ^ 2 + Rounded.val y ^ 2)| ≤ 1 / r) →
      Rounded.Fin n ∧ |Rounded.val c - Rounded.val n / (Rounded.val x ^ 2 + Rounded.val y ^ 2)| ≤
        divisorError (Rounded.u F) (nextError (Rounded.u F) (Rounded.u F + 2 * Rounded.η F / r ^ 2)) * (1 / r) + Rounded.η F := by
    intro y x x2 y2 n c hy hx hd h2 h3 h4 hf hn
    have fx := RoundedOps.sq_fin x x2 h2 hx
    have fy := RoundedOps.sq_fin y y2 h3 hy
    obtain ⟨-, ix⟩ := Rounded.sq x x2 h2 fx
    obtain ⟨-, iy⟩ := Rounded.sq y y2 h3 fy
    have hD := sum_sq_ge (y := Rounded.val y) hr hd.1
    have pr : 0 < r ^ 2 := by positivity
    have pD : 0 < Rounded.val x ^ 2 + Rounded.val y ^ 2 := pr.trans_le hD
    have i3 : |(Rounded.val x2 + Rounded.val y2) - (Rounded.val x ^ 2 + Rounded.val y ^ 2)| ≤
        (Rounded.u F + 2 * Rounded.η F / r ^ 2) * (Rounded.val x ^ 2 + Rounded.val y ^ 2) := by
      have e : (Rounded.val x2 + Rounded.val y2) - (Rounded.val x ^ 2 + Rounded.val y ^ 2) =
        (Rounded.val x2 - Rounded.val x ^ 2) + (Rounded.val y2 - Rounded.val y ^ 2) := by ring
      rw [e]
      refine (abs_add_le _ _).trans ((add_le_add ix iy).trans ?_)
      have : 2 * Rounded.η F ≤ 2 * Rounded.η F / r ^ 2 * (Rounded.val x ^ 2 + Rounded.val y ^ 2) := by
        rw [div_mul_eq_mul_div, le_div_iff₀ pr]
        exact mul_le_mul_of_nonneg_left hD (by positivity)
      linarith
    have hs : Rounded.Fin (x2 + y2) := RoundedRange.add_fin x2 y2 fx fy
      (sum_bound pD.le i3 (le_one_of_nextError hu hρ h1) (by linarith [hd.2]))
    obtain ⟨-, -, i2⟩ := Rounded.add x2 y2 hs
    have i4 := nextError_of hu pD.le i3 i2
    obtain ⟨fn, i5⟩ := div_rel_fl h4 hf hs pD h1 i4
    refine ⟨fn, i5.trans ?_⟩
    have := mul_le_mul_of_nonneg_left (hn fn) hE
    linarith
  refine ⟨fun y x z hy hx hd h hf => hv y x z hy hx hd (mapFlt_ok h) hf, fun y x c hy hx hd h hf => ?_,
    fun y x c hy hx hd h hf => ?_⟩
  · obtain ⟨x2, h2, h3⟩ := bindRes_ok (nanIfException_fin
      (r := do let x2 ← PyFloat.sq x; let y2 ← PyFloat.sq y; PyFloat.truediv x (x2 + y2)) h hf)
    obtain ⟨y2, h4, h5⟩ := bindRes_ok h3
    exact (key y x x2 y2 x c hy hx hd h2 h4 h5 hf fun _ => atan2_bound0 hr hd.1).2
  · obtain ⟨x2, h2, h3⟩ := bindRes_ok (nanIfException_fin
      (r := do let x2 ← PyFloat.sq x; let y2 ← PyFloat.sq y; PyFloat.truediv (-y) (x2 + y2)) h hf)
    obtain ⟨y2, h4, h5⟩ := bindRes_ok h3
    obtain ⟨fn, this⟩ := key y x x2 y2 (-y) c hy hx hd h2 h4 h5 hf fun fn => by
      rw [(RoundedOps.neg y fn).2]; exact atan2_bound1 hr hd.1
    rw [(RoundedOps.neg y fn).2] at this
    exact this

end

/-! ### Concrete cases: exact arithmetic -/

theorem NR.accurate2_on {fn : MF2} {g : ℝ → ℝ → ℝ} {dom : ℝ → ℝ → Prop}
    (h : ∀ x y, dom x y → NR.mathReal2 fn x y = .ok (.fin (g x y))) : Accurate2 NR fn g dom 0 := by
  intro x y z hx hy hd hz _
  cases x with
  | nan => exact hx.elim
  | fin x =>
    cases y with
    | nan => exact hy.elim
    | fin y =>
      have : NR.mathReal2 fn x y = .ok z := hz
      rw [h x y hd] at this
      cases this
      simp [Rounded.val, NR.real]

example : Implements2 (MF2.wrapDef .hypot : WrapDef NR) (hypotSpec (Rounded.u NR) (Rounded.η NR) 1 10 0) ∧
    (hypotSpec (Rounded.u NR) (Rounded.η NR) 1 10 0).Smooth := by
  refine ⟨C84_hypot one_pos le_rfl (by norm_num) (NR.accurate2_on fun _ _ _ => rfl) fun x y z hx hy _ h => ?_,
    hypotSpec_smooth le_rfl le_rfl one_pos le_rfl (by norm_num)⟩
  cases x with
  | nan => exact hx.elim
  | fin x =>
    cases y with
    | nan => exact hy.elim
    | fin y =>
      cases h
      trivial

theorem arg_right {x y : ℝ} (hx : 0 < x) : Complex.arg ⟨x, y⟩ = Real.arctan (y / x) := by
  have h1 : |Complex.arg ⟨x, y⟩| < Real.pi / 2 := Complex.abs_arg_lt_pi_div_two_iff.2 (Or.inl hx)
  have h2 := Real.arctan_tan (abs_lt.1 h1).1 (abs_lt.1 h1).2
  rw [Complex.tan_arg] at h2
  exact h2.symm

example : Implements2 (MF2.wrapDef .atan2 : WrapDef NR) (atan2Spec (Rounded.u NR) (Rounded.η NR) 1 0) ∧
    (atan2Spec (Rounded.u NR) (Rounded.η NR) 1 0).Smooth := by
  have h : nextError (Rounded.u NR) (Rounded.u NR + 2 * Rounded.η NR / 1 ^ 2) < 1 := by
    rw [nextError_zero]
    show (0 : ℝ) + 2 * 0 / 1 ^ 2 < 1
    norm_num
  refine ⟨C84_atan2 one_pos h (NR.accurate2_on fun y x hd => ?_), atan2Spec_smooth le_rfl le_rfl one_pos le_rfl h⟩
  simp only [NR.mathReal2]
  rw [arg_right (one_pos.trans_le hd.1)]

example : Implements2 (MF2.wrapDef .copysign : WrapDef NR) (copysignSpec 1 10 1 0) ∧ (copysignSpec 1 10 1 0).Smooth := by
  refine ⟨C84_copysign one_pos le_rfl (by norm_num) (NR.accurate2_on fun x y hd => ?_),
    copysignSpec_smooth one_pos (by norm_num) one_pos le_rfl⟩
  have hy : y ≠ 0 := abs_pos.1 (one_pos.trans_le hd.2)
  simp only [NR.mathReal2, sign1]
  rcases lt_or_gt_of_ne hy with h | h
  · rw [if_neg (not_le.2 h), if_neg (not_lt.2 h.le), neg_one_mul]
  · rw [if_pos h.le, if_pos h, one_mul]

end Unc
