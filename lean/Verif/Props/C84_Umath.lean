import Verif.Props.C84_Formula
import Verif.Py.NRRounded
import Mathlib.Analysis.Calculus.MeanValue
import Mathlib.Analysis.SpecialFunctions.ExpDeriv
import Mathlib.Analysis.SpecialFunctions.Log.Deriv
import Mathlib.Analysis.SpecialFunctions.Trigonometric.Deriv
import Mathlib.Analysis.SpecialFunctions.Trigonometric.ArctanDeriv

/-
C84: functions of `umath` that satisfy the hypotheses of the theorems on calculations, if the functions of the `math` module have
a given accuracy.
-/

namespace Unc

set_option autoImplicit false

/-- A function with a bounded derivative on a convex set. -/
theorem lip_of_deriv {f f' : ℝ → ℝ} {s : Set ℝ} (hs : Convex ℝ s) {C : ℝ} (h : ∀ x ∈ s, HasDerivAt f (f' x) x)
    (hC : ∀ x ∈ s, |f' x| ≤ C) {x y : ℝ} (hx : x ∈ s) (hy : y ∈ s) : |f x - f y| ≤ C * |x - y| := by
  have := hs.norm_image_sub_le_of_norm_hasDerivWithin_le (f := f) (f' := f') (C := C)
    (fun x hx => (h x hx).hasDerivWithinAt) (fun x hx => by rw [Real.norm_eq_abs]; exact hC x hx) hy hx
  simpa only [Real.norm_eq_abs] using this

/-! ### Mathematical functions -/

/-- The sine, calculated with the accuracy `ε`, and its derivative, calculated with the accuracy `δ`. -/
noncomputable def sinSpec (ε δ : ℝ) : FnSpec1 where
  g := Real.sin
  d := Real.cos
  dom := fun _ => True
  lip := 1
  dlip := 1
  acc := ε
  dacc := δ

theorem sinSpec_smooth {ε δ : ℝ} (hε : 0 ≤ ε) (hδ : 0 ≤ δ) : (sinSpec ε δ).Smooth := by
  refine ⟨fun x _ => Real.hasDerivAt_sin x, fun x y _ _ => ?_, fun x y _ _ => ?_, zero_le_one, zero_le_one, hε, hδ⟩
  · exact lip_of_deriv (f' := Real.cos) convex_univ (fun x _ => Real.hasDerivAt_sin x) (fun x _ => Real.abs_cos_le_one x) trivial trivial
  · exact lip_of_deriv (f' := fun x => -Real.sin x) convex_univ (fun x _ => Real.hasDerivAt_cos x)
      (fun x _ => by rw [abs_neg]; exact Real.abs_sin_le_one x) trivial trivial

/-- The cosine. -/
noncomputable def cosSpec (ε δ : ℝ) : FnSpec1 where
  g := Real.cos
  d := fun x => -Real.sin x
  dom := fun _ => True
  lip := 1
  dlip := 1
  acc := ε
  dacc := δ

theorem cosSpec_smooth {ε δ : ℝ} (hε : 0 ≤ ε) (hδ : 0 ≤ δ) : (cosSpec ε δ).Smooth := by
  refine ⟨fun x _ => Real.hasDerivAt_cos x, fun x y _ _ => ?_, fun x y _ _ => ?_, zero_le_one, zero_le_one, hε, hδ⟩
  · exact lip_of_deriv (f' := fun x => -Real.sin x) convex_univ (fun x _ => Real.hasDerivAt_cos x)
      (fun x _ => by rw [abs_neg]; exact Real.abs_sin_le_one x) trivial trivial
  · exact lip_of_deriv (f := fun x => -Real.sin x) (f' := fun x => -Real.cos x) convex_univ (fun x _ => (Real.hasDerivAt_sin x).neg)
      (fun x _ => by rw [abs_neg]; exact Real.abs_cos_le_one x) trivial trivial

/-- The exponential of numbers that are not greater than `b`. -/
noncomputable def expSpec (b ε : ℝ) : FnSpec1 where
  g := Real.exp
  d := Real.exp
  dom := fun x => x ≤ b
  lip := Real.exp b
  dlip := Real.exp b
  acc := ε
  dacc := ε

theorem expSpec_smooth {b ε : ℝ} (hε : 0 ≤ ε) : (expSpec b ε).Smooth := by
  have h : ∀ x y, x ≤ b → y ≤ b → |Real.exp x - Real.exp y| ≤ Real.exp b * |x - y| := fun x y hx hy =>
    lip_of_deriv (f' := Real.exp) (convex_Iic b) (fun x _ => Real.hasDerivAt_exp x)
      (fun x hx => by rw [abs_of_pos (Real.exp_pos x)]; exact Real.exp_le_exp.2 hx) hx hy
  exact ⟨fun x _ => Real.hasDerivAt_exp x, h, h, (Real.exp_pos b).le, (Real.exp_pos b).le, hε, hε⟩

/-- The logarithm of numbers that are not smaller than `a > 0`. -/
noncomputable def logSpec (u η a ε : ℝ) : FnSpec1 where
  g := Real.log
  d := fun x => 1 / x
  dom := fun x => a ≤ x
  lip := 1 / a
  dlip := 1 / a ^ 2
  acc := ε
  dacc := u / a + η

theorem logSpec_smooth {u η a ε : ℝ} (hu : 0 ≤ u) (hη : 0 ≤ η) (ha : 0 < a) (hε : 0 ≤ ε) : (logSpec u η a ε).Smooth := by
  have pos : ∀ x, a ≤ x → 0 < x := fun x hx => ha.trans_le hx
  refine ⟨fun x hx => ?_, fun x y hx hy => ?_, fun x y hx hy => ?_, by simp only [logSpec]; positivity,
    by simp only [logSpec]; positivity, hε, by simp only [logSpec]; positivity⟩
  · have := Real.hasDerivAt_log (pos x hx).ne'
    rwa [← one_div] at this
  · refine lip_of_deriv (f' := fun x => x⁻¹) (convex_Ici a) (fun x hx => Real.hasDerivAt_log (pos x hx).ne') (fun x hx => ?_) hx hy
    rw [abs_of_pos (inv_pos.2 (pos x hx)), ← one_div]
    exact one_div_le_one_div_of_le ha hx
  · refine lip_of_deriv (f := fun x => 1 / x) (f' := fun x => -(x ^ 2)⁻¹) (convex_Ici a) (fun x hx => ?_) (fun x hx => ?_) hx hy
    · simpa only [one_div] using hasDerivAt_inv (pos x hx).ne'
    · have hx' : 0 < x := pos x hx
      rw [abs_neg, abs_of_pos (by positivity), ← one_div]
      exact one_div_le_one_div_of_le (by positivity) (by have : a ≤ x := hx; gcongr)

/-- Absolute error of the calculation of `tan(x)**2`. -/
noncomputable def tanError (u η T ε : ℝ) : ℝ := ε * (2 * T + ε) + u * (T + ε) ^ 2 + η

/-- The tangent between `-b` and `b < π/2`. -/
noncomputable def tanSpec (u η b ε : ℝ) : FnSpec1 where
  g := Real.tan
  d := fun x => 1 + Real.tan x ^ 2
  dom := fun x => |x| ≤ b
  lip := 1 + Real.tan b ^ 2
  dlip := 2 * Real.tan b * (1 + Real.tan b ^ 2)
  acc := ε
  dacc := tanError u η (Real.tan b) ε + u * (1 + Real.tan b ^ 2 + tanError u η (Real.tan b) ε)

theorem abs_tan_le {b x : ℝ} (hb : b < Real.pi / 2) (hx : |x| ≤ b) : |Real.tan x| ≤ Real.tan b := by
  obtain ⟨h1, h2⟩ := abs_le.1 hx
  have hm := Real.strictMonoOn_tan.monotoneOn
  have m : ∀ y, -b ≤ y → y ≤ b → y ∈ Set.Ioo (-(Real.pi / 2)) (Real.pi / 2) := fun y hy hy' => ⟨by linarith, by linarith⟩
  have hb0 : 0 ≤ b := (abs_nonneg x).trans hx
  rw [abs_le]
  constructor
  · rw [← Real.tan_neg]
    exact hm (m _ le_rfl (by linarith)) (m _ h1 h2) h1
  · exact hm (m _ h1 h2) (m _ (by linarith) le_rfl) h2

theorem hasDerivAt_tan' {x : ℝ} (hc : Real.cos x ≠ 0) : HasDerivAt Real.tan (1 + Real.tan x ^ 2) x := by
  have := Real.hasDerivAt_tan hc
  have e : 1 / Real.cos x ^ 2 = 1 + Real.tan x ^ 2 := by
    rw [Real.tan_eq_sin_div_cos]
    field_simp
    rw [Real.cos_sq_add_sin_sq]
  rwa [e] at this

theorem tanSpec_smooth {u η b ε : ℝ} (hu : 0 ≤ u) (hη : 0 ≤ η) (hb0 : 0 ≤ b) (hb : b < Real.pi / 2) (hε : 0 ≤ ε) :
    (tanSpec u η b ε).Smooth := by
  have hT : 0 ≤ Real.tan b := (abs_nonneg _).trans (abs_tan_le hb (x := b) (by rw [abs_of_nonneg hb0]))
  have hconv : Convex ℝ {x : ℝ | |x| ≤ b} := by
    have : {x : ℝ | |x| ≤ b} = Set.Icc (-b) b := by ext x; simp [abs_le]
    rw [this]; exact convex_Icc _ _
  have hder : ∀ x, |x| ≤ b → HasDerivAt Real.tan (1 + Real.tan x ^ 2) x := fun x hx => by
    obtain ⟨h1, h2⟩ := abs_le.1 hx
    exact hasDerivAt_tan' (Real.cos_pos_of_mem_Ioo ⟨by linarith, by linarith⟩).ne'
  have hsq : ∀ x, |x| ≤ b → Real.tan x ^ 2 ≤ Real.tan b ^ 2 := fun x hx =>
    sq_le_sq.2 (by rw [abs_of_nonneg hT]; exact abs_tan_le hb hx)
  have herr : 0 ≤ tanError u η (Real.tan b) ε := by unfold tanError; positivity
  refine ⟨fun x hx => hder x hx, fun x y hx hy => ?_, fun x y hx hy => ?_, by simp only [tanSpec]; positivity,
    by simp only [tanSpec]; positivity, hε, by simp only [tanSpec]; positivity⟩
  · refine lip_of_deriv (f' := fun x => 1 + Real.tan x ^ 2) hconv (fun x hx => hder x hx) (fun x hx => ?_) hx hy
    rw [abs_of_nonneg (by positivity)]
    show 1 + Real.tan x ^ 2 ≤ 1 + Real.tan b ^ 2
    linarith [hsq x hx]
  · refine lip_of_deriv (f := fun x => 1 + Real.tan x ^ 2) (f' := fun x => 2 * Real.tan x * (1 + Real.tan x ^ 2)) hconv
      (fun x hx => ?_) (fun x hx => ?_) hx hy
    · have := ((hder x hx).pow 2).const_add 1
      simpa using this
    · rw [abs_mul, abs_mul, abs_of_nonneg (by positivity : (0 : ℝ) ≤ 1 + Real.tan x ^ 2), abs_of_pos (by norm_num : (0 : ℝ) < 2)]
      have h1 := abs_tan_le hb hx
      have h2 := hsq x hx
      show 2 * |Real.tan x| * (1 + Real.tan x ^ 2) ≤ 2 * Real.tan b * (1 + Real.tan b ^ 2)
      gcongr

/-! ### The functions of `umath` -/

section
variable {F : Type} [PyMath F] [RoundedOps F]

/-- The function `fn` of the `math` module calculates `g` with the accuracy `ε`. -/
def Accurate (F : Type) [PyMath F] [RoundedOps F] (fn : MF1) (g : ℝ → ℝ) (dom : ℝ → Prop) (ε : ℝ) : Prop :=
  ∀ x y : F, Rounded.Fin x → dom (Rounded.val x) → PyMath.fn1 fn x = .ok y → Rounded.Fin y →
    |Rounded.val y - g (Rounded.val x)| ≤ ε

theorem mapFlt_ok {r : PyRes F} {y : F} (h : r.map PyVal.flt = .ok (.flt y)) : r = .ok y := by
  cases r with
  | error e => cases h
  | ok z => cases h; rfl

theorem nanIfException_fin {r : PyRes F} {c : F} (h : nanIfException r = .ok c) (hc : Rounded.Fin c) : r = .ok c := by
  cases r with
  | ok z => exact h
  | error e => cases e <;> first | (cases h; done) | (cases h; exact absurd hc RoundedDiv.not_fin_nan)

theorem bindRes_ok {r : PyRes F} {f : F → PyRes F} {c : F} (h : (do let x ← r; f x) = .ok c) : ∃ x, r = .ok x ∧ f x = .ok c := by
  cases r with
  | error e => cases h
  | ok x => exact ⟨x, rfl, h⟩

/-- **C84**: `umath.sin`. -/
theorem C84_sin {ε δ : ℝ} (hs : Accurate F .sin Real.sin (fun _ => True) ε) (hc : Accurate F .cos Real.cos (fun _ => True) δ) :
    Implements1 (MF1.wrapDef .sin : WrapDef F) (sinSpec ε δ) :=
  ⟨fun x y hx hd hy hf => hs x y hx hd (mapFlt_ok hy) hf, fun x c hx hd h hf => hc x c hx hd (nanIfException_fin h hf) hf⟩

/-- **C84**: `umath.cos`. -/
theorem C84_cos {ε δ : ℝ} (hc : Accurate F .cos Real.cos (fun _ => True) ε) (hs : Accurate F .sin Real.sin (fun _ => True) δ) :
    Implements1 (MF1.wrapDef .cos : WrapDef F) (cosSpec ε δ) := by
  refine ⟨fun x y hx hd hy hf => hc x y hx hd (mapFlt_ok hy) hf, fun x c hx hd h hf => ?_⟩
  obtain ⟨s, h1, h2⟩ := bindRes_ok (nanIfException_fin (r := do let s ← PyMath.fn1 .sin x; .ok (-s)) h hf)
  cases h2
  obtain ⟨h3, h4⟩ := RoundedOps.neg s hf
  have := hs x s hx hd h1 h3
  rw [h4]
  show |-Rounded.val s - -Real.sin (Rounded.val x)| ≤ δ
  rw [← abs_neg]
  convert this using 2
  ring

/-- **C84**: `umath.exp`. -/
theorem C84_exp {b ε : ℝ} (he : Accurate F .exp Real.exp (fun x => x ≤ b) ε) :
    Implements1 (MF1.wrapDef .exp : WrapDef F) (expSpec b ε) :=
  ⟨fun x y hx hd hy hf => he x y hx hd (mapFlt_ok hy) hf, fun x c hx hd h hf => he x c hx hd (nanIfException_fin h hf) hf⟩

/-- **C84**: `umath.log`, with one argument. -/
theorem C84_log {a ε : ℝ} (ha : 0 < a)
    (hl : ∀ x y : F, Rounded.Fin x → a ≤ Rounded.val x → PyOps.log x = .ok y → Rounded.Fin y →
      |Rounded.val y - Real.log (Rounded.val x)| ≤ ε) :
    Implements1 (logWrapDef : WrapDef F) (logSpec (Rounded.u F) (Rounded.η F) a ε) := by
  refine ⟨fun x y hx hd hy hf => hl x y hx hd (mapFlt_ok hy) hf, fun x c hx hd h hf => ?_⟩
  obtain ⟨-, -, h3⟩ := RoundedDiv.div _ _ _ (nanIfException_fin (r := PyFloat.truediv 1 x) h hf) hf hx
  have hx' : 0 < Rounded.val x := ha.trans_le hd
  have hu : 0 ≤ Rounded.u F := Rounded.u_nonneg
  rw [Rounded.val_one, abs_of_pos (by positivity : 0 < 1 / Rounded.val x)] at h3
  refine h3.trans ?_
  show Rounded.u F * (1 / Rounded.val x) + Rounded.η F ≤ Rounded.u F / a + Rounded.η F
  have : 1 / Rounded.val x ≤ 1 / a := one_div_le_one_div_of_le ha hd
  have := mul_le_mul_of_nonneg_left this hu
  rw [mul_one_div, mul_one_div] at this
  rw [mul_one_div]
  linarith

/-- **C84**: `umath.tan`. -/
theorem C84_tan {b ε : ℝ} (hb : b < Real.pi / 2) (ht : Accurate F .tan Real.tan (fun x => |x| ≤ b) ε) :
    Implements1 (MF1.wrapDef .tan : WrapDef F) (tanSpec (Rounded.u F) (Rounded.η F) b ε) := by
  refine ⟨fun x y hx hd hy hf => ht x y hx hd (mapFlt_ok hy) hf, fun x c hx hd h hf => ?_⟩
  obtain ⟨t, h1, h2⟩ := bindRes_ok (nanIfException_fin
    (r := do let t ← PyMath.fn1 .tan x; let t2 ← PyFloat.sq t; .ok (1 + t2)) h hf)
  obtain ⟨q, h3, h4⟩ := bindRes_ok h2
  cases h4
  obtain ⟨-, hfq, i2⟩ := Rounded.add 1 q hf
  obtain ⟨hft, i1⟩ := Rounded.sq t q h3 hfq
  have i0 := ht x t hx hd h1 hft
  rw [Rounded.val_one] at i2
  have hu : 0 ≤ Rounded.u F := Rounded.u_nonneg
  have hη : 0 ≤ Rounded.η F := Rounded.η_nonneg
  have hT := abs_tan_le hb hd
  show |Rounded.val (1 + q) - (1 + Real.tan (Rounded.val x) ^ 2)| ≤ tanError (Rounded.u F) (Rounded.η F) (Real.tan b) ε +
    Rounded.u F * (1 + Real.tan b ^ 2 + tanError (Rounded.u F) (Rounded.η F) (Real.tan b) ε)
  generalize Rounded.u F = u at *
  generalize Rounded.η F = η at *
  generalize Rounded.val (1 + q) = c at *
  generalize Rounded.val q = q' at *
  generalize Rounded.val t = t' at *
  generalize Real.tan (Rounded.val x) = τ at *
  generalize Real.tan b = T at *
  have hε : 0 ≤ ε := (abs_nonneg _).trans i0
  have hT0 : 0 ≤ T := (abs_nonneg _).trans hT
  have ht' : |t'| ≤ T + ε := by
    have : t' = τ + (t' - τ) := by ring
    rw [this]
    exact (abs_add_le _ _).trans (add_le_add hT i0)
  have e1 : |t' ^ 2 - τ ^ 2| ≤ ε * (2 * T + ε) := by
    have : t' ^ 2 - τ ^ 2 = (t' - τ) * (t' + τ) := by ring
    rw [this, abs_mul]
    refine mul_le_mul i0 ((abs_add_le _ _).trans (by linarith)) (abs_nonneg _) hε
  have e2 : t' ^ 2 ≤ (T + ε) ^ 2 := sq_le_sq.2 (by rw [abs_of_nonneg (by positivity : 0 ≤ T + ε)]; exact ht')
  have e3 : |q' - τ ^ 2| ≤ tanError u η T ε := by
    have : q' - τ ^ 2 = (q' - t' ^ 2) + (t' ^ 2 - τ ^ 2) := by ring
    rw [this]
    refine (abs_add_le _ _).trans ?_
    have := mul_le_mul_of_nonneg_left e2 hu
    unfold tanError
    linarith
  have e4 : τ ^ 2 ≤ T ^ 2 := sq_le_sq.2 (by rw [abs_of_nonneg hT0]; exact hT)
  have e5 : |1 + q'| ≤ 1 + T ^ 2 + tanError u η T ε := by
    have : 1 + q' = (1 + τ ^ 2) + (q' - τ ^ 2) := by ring
    rw [this]
    refine (abs_add_le _ _).trans ?_
    rw [abs_of_nonneg (by positivity : 0 ≤ 1 + τ ^ 2)]
    linarith
  have : c - (1 + τ ^ 2) = (c - (1 + q')) + (q' - τ ^ 2) := by ring
  rw [this]
  refine (abs_add_le _ _).trans ?_
  have := mul_le_mul_of_nonneg_left e5 hu
  linarith

end

/-! ### Concrete cases: exact arithmetic -/

theorem NR.accurate {fn : MF1} {g : ℝ → ℝ} (h : ∀ x, NR.mathReal fn x = .ok (.fin (g x))) (dom : ℝ → Prop) :
    Accurate NR fn g dom 0 := by
  intro x y hx _ hy _
  cases x with
  | nan => exact hx.elim
  | fin x =>
    have : NR.mathReal fn x = .ok y := hy
    rw [h] at this
    cases this
    simp [Rounded.val, NR.real]

example : Implements1 (MF1.wrapDef .sin : WrapDef NR) (sinSpec 0 0) ∧ (sinSpec 0 0).Smooth :=
  ⟨C84_sin (NR.accurate (fun _ => rfl) _) (NR.accurate (fun _ => rfl) _), sinSpec_smooth le_rfl le_rfl⟩

example : Implements1 (MF1.wrapDef .cos : WrapDef NR) (cosSpec 0 0) ∧ (cosSpec 0 0).Smooth :=
  ⟨C84_cos (NR.accurate (fun _ => rfl) _) (NR.accurate (fun _ => rfl) _), cosSpec_smooth le_rfl le_rfl⟩

example : Implements1 (MF1.wrapDef .exp : WrapDef NR) (expSpec 1 0) ∧ (expSpec 1 0).Smooth :=
  ⟨C84_exp (NR.accurate (fun _ => rfl) _), expSpec_smooth le_rfl⟩

example : Implements1 (MF1.wrapDef .tan : WrapDef NR) (tanSpec (Rounded.u NR) (Rounded.η NR) (1 / 2) 0) ∧
    (tanSpec (Rounded.u NR) (Rounded.η NR) (1 / 2) 0).Smooth :=
  have h : (1 / 2 : ℝ) < Real.pi / 2 := by linarith [Real.one_le_pi_div_two]
  ⟨C84_tan h (NR.accurate (fun _ => rfl) _), tanSpec_smooth le_rfl le_rfl (by norm_num) h le_rfl⟩

example : Implements1 (logWrapDef : WrapDef NR) (logSpec (Rounded.u NR) (Rounded.η NR) 2 0) ∧
    (logSpec (Rounded.u NR) (Rounded.η NR) 2 0).Smooth := by
  refine ⟨C84_log two_pos ?_, logSpec_smooth le_rfl le_rfl two_pos le_rfl⟩
  intro x y hx h2 hy _
  cases x with
  | nan => exact hx.elim
  | fin x =>
    have hx2 : (2 : ℝ) ≤ x := h2
    have : ¬ x ≤ 0 := by linarith
    simp only [PyOps.log, this, if_false] at hy
    cases hy
    simp [Rounded.val, NR.real]

end Unc
