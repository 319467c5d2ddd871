import Verif.Props.C84_Umath
import Mathlib.Analysis.SpecialFunctions.Trigonometric.DerivHyp

/-
C84: other functions of `umath` that satisfy the hypotheses of the theorems on calculations: hyperbolic functions, `expm1`,
conversions of angles.
-/

namespace Unc

set_option autoImplicit false

/-! ### Mathematical functions -/

/-- `exp(x) - 1` for numbers that are not greater than `b`. -/
noncomputable def expm1Spec (b ε δ : ℝ) : FnSpec1 where
  g := fun x => Real.exp x - 1
  d := Real.exp
  dom := fun x => x ≤ b
  lip := Real.exp b
  dlip := Real.exp b
  acc := ε
  dacc := δ

theorem expm1Spec_smooth {b ε δ : ℝ} (hε : 0 ≤ ε) (hδ : 0 ≤ δ) : (expm1Spec b ε δ).Smooth := by
  have h := expSpec_smooth (b := b) hε
  refine ⟨fun x hx => (h.deriv x hx).sub_const 1, fun x y hx hy => ?_, h.dlip, h.lip_nonneg, h.dlip_nonneg, hε, hδ⟩
  have := h.lip x y hx hy
  simp only [expm1Spec, sub_sub_sub_cancel_right]
  exact this

/-- The hyperbolic sine between `-b` and `b`. -/
noncomputable def sinhSpec (b ε δ : ℝ) : FnSpec1 where
  g := Real.sinh
  d := Real.cosh
  dom := fun x => |x| ≤ b
  lip := Real.cosh b
  dlip := Real.sinh b
  acc := ε
  dacc := δ

/-- The hyperbolic cosine between `-b` and `b`. -/
noncomputable def coshSpec (b ε δ : ℝ) : FnSpec1 where
  g := Real.cosh
  d := Real.sinh
  dom := fun x => |x| ≤ b
  lip := Real.sinh b
  dlip := Real.cosh b
  acc := ε
  dacc := δ

theorem convex_abs_le (b : ℝ) : Convex ℝ {x : ℝ | |x| ≤ b} := by
  have : {x : ℝ | |x| ≤ b} = Set.Icc (-b) b := by ext x; simp [abs_le]
  rw [this]; exact convex_Icc _ _

theorem abs_cosh_le {b x : ℝ} (hb : 0 ≤ b) (hx : |x| ≤ b) : |Real.cosh x| ≤ Real.cosh b := by
  rw [abs_of_pos (Real.cosh_pos x)]
  exact Real.cosh_le_cosh.2 (by rwa [abs_of_nonneg hb])

theorem abs_sinh_le {b x : ℝ} (hx : |x| ≤ b) : |Real.sinh x| ≤ Real.sinh b := by
  rw [Real.abs_sinh]
  exact Real.sinh_le_sinh.2 hx

theorem sinh_lip {b x y : ℝ} (hb : 0 ≤ b) (hx : |x| ≤ b) (hy : |y| ≤ b) : |Real.sinh x - Real.sinh y| ≤ Real.cosh b * |x - y| :=
  lip_of_deriv (f' := Real.cosh) (convex_abs_le b) (fun x _ => Real.hasDerivAt_sinh x) (fun _ hx => abs_cosh_le hb hx) hx hy

theorem cosh_lip {b x y : ℝ} (hx : |x| ≤ b) (hy : |y| ≤ b) : |Real.cosh x - Real.cosh y| ≤ Real.sinh b * |x - y| :=
  lip_of_deriv (f' := Real.sinh) (convex_abs_le b) (fun x _ => Real.hasDerivAt_cosh x) (fun _ hx => abs_sinh_le hx) hx hy

theorem sinhSpec_smooth {b ε δ : ℝ} (hb : 0 ≤ b) (hε : 0 ≤ ε) (hδ : 0 ≤ δ) : (sinhSpec b ε δ).Smooth :=
  ⟨fun x _ => Real.hasDerivAt_sinh x, fun _ _ hx hy => sinh_lip hb hx hy, fun _ _ hx hy => cosh_lip hx hy,
    (Real.cosh_pos b).le, Real.sinh_nonneg_iff.2 hb, hε, hδ⟩

theorem coshSpec_smooth {b ε δ : ℝ} (hb : 0 ≤ b) (hε : 0 ≤ ε) (hδ : 0 ≤ δ) : (coshSpec b ε δ).Smooth :=
  ⟨fun x _ => Real.hasDerivAt_cosh x, fun _ _ hx hy => cosh_lip hx hy, fun _ _ hx hy => sinh_lip hb hx hy,
    Real.sinh_nonneg_iff.2 hb, (Real.cosh_pos b).le, hε, hδ⟩

/-- The hyperbolic tangent. -/
noncomputable def tanhSpec (u η ε : ℝ) : FnSpec1 where
  g := Real.tanh
  d := fun x => 1 - Real.tanh x ^ 2
  dom := fun _ => True
  lip := 1
  dlip := 2
  acc := ε
  dacc := tanError u η 1 ε + u * (1 + tanError u η 1 ε)

theorem hasDerivAt_tanh' (x : ℝ) : HasDerivAt Real.tanh (1 - Real.tanh x ^ 2) x := by
  have h := (Real.hasDerivAt_sinh x).div (Real.hasDerivAt_cosh x) (Real.cosh_pos x).ne'
  have e : Real.tanh = fun y => Real.sinh y / Real.cosh y := funext Real.tanh_eq_sinh_div_cosh
  rw [e]
  refine h.congr_deriv ?_
  have := (Real.cosh_pos x).ne'
  field_simp

theorem tanh_sq_le (x : ℝ) : Real.tanh x ^ 2 ≤ 1 := by
  have hc : 0 < Real.cosh x ^ 2 := by have := Real.cosh_pos x; positivity
  rw [Real.tanh_eq_sinh_div_cosh, div_pow, div_le_one hc, Real.cosh_sq]
  linarith

theorem tanhSpec_smooth {u η ε : ℝ} (hu : 0 ≤ u) (hη : 0 ≤ η) (hε : 0 ≤ ε) : (tanhSpec u η ε).Smooth := by
  have herr : 0 ≤ tanError u η 1 ε := by unfold tanError; positivity
  have h0 : ∀ x : ℝ, |1 - Real.tanh x ^ 2| ≤ 1 := fun x => by
    rw [abs_of_nonneg (by linarith [tanh_sq_le x])]
    linarith [sq_nonneg (Real.tanh x)]
  refine ⟨fun x _ => hasDerivAt_tanh' x, fun x y _ _ => ?_, fun x y _ _ => ?_, zero_le_one, zero_le_two, hε,
    by simp only [tanhSpec]; positivity⟩
  · exact lip_of_deriv (f' := fun x => 1 - Real.tanh x ^ 2) convex_univ (fun x _ => hasDerivAt_tanh' x) (fun x _ => h0 x)
      trivial trivial
  · refine lip_of_deriv (f := fun x => 1 - Real.tanh x ^ 2) (f' := fun x => -(2 * Real.tanh x * (1 - Real.tanh x ^ 2)))
      convex_univ (fun x _ => ?_) (fun x _ => ?_) trivial trivial
    · have := ((hasDerivAt_tanh' x).pow 2).const_sub 1
      simpa using this
    · have h1 : |Real.tanh x| ≤ 1 := by
        rw [← sq_le_one_iff_abs_le_one]; exact tanh_sq_le x
      rw [abs_neg, abs_mul, abs_mul, abs_of_pos (by norm_num : (0 : ℝ) < 2)]
      show 2 * |Real.tanh x| * |1 - Real.tanh x ^ 2| ≤ 2
      calc 2 * |Real.tanh x| * |1 - Real.tanh x ^ 2| ≤ 2 * 1 * 1 := by gcongr; exact h0 x
        _ = 2 := by norm_num

/-- A multiplication by `k` (conversions of angles). -/
noncomputable def scaleSpec (k ε δ : ℝ) : FnSpec1 where
  g := fun x => x * k
  d := fun _ => k
  dom := fun _ => True
  lip := |k|
  dlip := 0
  acc := ε
  dacc := δ

theorem scaleSpec_smooth {k ε δ : ℝ} (hε : 0 ≤ ε) (hδ : 0 ≤ δ) : (scaleSpec k ε δ).Smooth := by
  refine ⟨fun x _ => ?_, fun x y _ _ => ?_, fun x y _ _ => ?_, abs_nonneg k, le_rfl, hε, hδ⟩
  · have : HasDerivAt (fun y : ℝ => y * k) (1 * k) x := (hasDerivAt_id x).mul_const k
    rw [one_mul] at this
    exact this
  · show |x * k - y * k| ≤ |k| * |x - y|
    rw [← sub_mul, abs_mul, mul_comm]
  · simp [scaleSpec]

/-! ### The functions of `umath` -/

section
variable {F : Type} [PyMath F] [RoundedOps F]

/-- **C84**: `umath.expm1`. -/
theorem C84_expm1 {b ε δ : ℝ} (hm : Accurate F .expm1 (fun x => Real.exp x - 1) (fun x => x ≤ b) ε)
    (he : Accurate F .exp Real.exp (fun x => x ≤ b) δ) :
    Implements1 (MF1.wrapDef .expm1 : WrapDef F) (expm1Spec b ε δ) :=
  ⟨fun x y hx hd hy hf => hm x y hx hd (mapFlt_ok hy) hf, fun x c hx hd h hf => he x c hx hd (nanIfException_fin h hf) hf⟩

/-- **C84**: `umath.sinh`. -/
theorem C84_sinh {b ε δ : ℝ} (hs : Accurate F .sinh Real.sinh (fun x => |x| ≤ b) ε)
    (hc : Accurate F .cosh Real.cosh (fun x => |x| ≤ b) δ) :
    Implements1 (MF1.wrapDef .sinh : WrapDef F) (sinhSpec b ε δ) :=
  ⟨fun x y hx hd hy hf => hs x y hx hd (mapFlt_ok hy) hf, fun x c hx hd h hf => hc x c hx hd (nanIfException_fin h hf) hf⟩

/-- **C84**: `umath.cosh`. -/
theorem C84_cosh {b ε δ : ℝ} (hc : Accurate F .cosh Real.cosh (fun x => |x| ≤ b) ε)
    (hs : Accurate F .sinh Real.sinh (fun x => |x| ≤ b) δ) :
    Implements1 (MF1.wrapDef .cosh : WrapDef F) (coshSpec b ε δ) :=
  ⟨fun x y hx hd hy hf => hc x y hx hd (mapFlt_ok hy) hf, fun x c hx hd h hf => hs x c hx hd (nanIfException_fin h hf) hf⟩

/-- **C84**: `umath.tanh`. -/
theorem C84_tanh {ε : ℝ} (ht : Accurate F .tanh Real.tanh (fun _ => True) ε) :
    Implements1 (MF1.wrapDef .tanh : WrapDef F) (tanhSpec (Rounded.u F) (Rounded.η F) ε) := by
  refine ⟨fun x y hx hd hy hf => ht x y hx hd (mapFlt_ok hy) hf, fun x c hx hd h hf => ?_⟩
  obtain ⟨t, h1, h2⟩ := bindRes_ok (nanIfException_fin
    (r := do let t ← PyMath.fn1 .tanh x; let t2 ← PyFloat.sq t; .ok (1 - t2)) h hf)
  obtain ⟨q, h3, h4⟩ := bindRes_ok h2
  cases h4
  obtain ⟨-, hfq, i2⟩ := RoundedStep.sub 1 q hf
  obtain ⟨hft, i1⟩ := Rounded.sq t q h3 hfq
  have i0 := ht x t hx hd h1 hft
  rw [Rounded.val_one] at i2
  have hu : 0 ≤ Rounded.u F := Rounded.u_nonneg
  have hη : 0 ≤ Rounded.η F := Rounded.η_nonneg
  have hT := tanh_sq_le (Rounded.val x)
  show |Rounded.val (1 - q) - (1 - Real.tanh (Rounded.val x) ^ 2)| ≤ tanError (Rounded.u F) (Rounded.η F) 1 ε +
    Rounded.u F * (1 + tanError (Rounded.u F) (Rounded.η F) 1 ε)
  generalize Rounded.u F = u at *
  generalize Rounded.η F = η at *
  generalize Rounded.val (1 - q) = c at *
  generalize Rounded.val q = q' at *
  generalize Rounded.val t = t' at *
  generalize Real.tanh (Rounded.val x) = τ at *
  have hε : 0 ≤ ε := (abs_nonneg _).trans i0
  have hτ : |τ| ≤ 1 := by rw [← sq_le_one_iff_abs_le_one]; exact hT
  have ht' : |t'| ≤ 1 + ε := by
    have : t' = τ + (t' - τ) := by ring
    rw [this]
    exact (abs_add_le _ _).trans (add_le_add hτ i0)
  have e1 : |t' ^ 2 - τ ^ 2| ≤ ε * (2 * 1 + ε) := by
    have : t' ^ 2 - τ ^ 2 = (t' - τ) * (t' + τ) := by ring
    rw [this, abs_mul]
    refine mul_le_mul i0 ((abs_add_le _ _).trans (by linarith)) (abs_nonneg _) hε
  have e2 : t' ^ 2 ≤ (1 + ε) ^ 2 := sq_le_sq.2 (by rw [abs_of_nonneg (by positivity : 0 ≤ 1 + ε)]; exact ht')
  have e3 : |q' - τ ^ 2| ≤ tanError u η 1 ε := by
    have : q' - τ ^ 2 = (q' - t' ^ 2) + (t' ^ 2 - τ ^ 2) := by ring
    rw [this]
    refine (abs_add_le _ _).trans ?_
    have := mul_le_mul_of_nonneg_left e2 hu
    unfold tanError
    linarith
  have e5 : |1 - q'| ≤ 1 + tanError u η 1 ε := by
    have : 1 - q' = (1 - τ ^ 2) - (q' - τ ^ 2) := by ring
    rw [this]
    refine (abs_sub _ _).trans ?_
    rw [abs_of_nonneg (by linarith : 0 ≤ 1 - τ ^ 2)]
    linarith [sq_nonneg τ]
  have : c - (1 - τ ^ 2) = (c - (1 - q')) - (q' - τ ^ 2) := by ring
  rw [this]
  refine (abs_sub _ _).trans ?_
  have := mul_le_mul_of_nonneg_left e5 hu
  linarith

/-- **C84**: `umath.radians`. -/
theorem C84_radians {ε : ℝ} (h : Accurate F .radians (fun x => x * (Real.pi / 180)) (fun _ => True) ε) :
    Implements1 (MF1.wrapDef .radians : WrapDef F) (scaleSpec (Real.pi / 180) ε ε) := by
  refine ⟨fun x y hx hd hy hf => h x y hx hd (mapFlt_ok hy) hf, fun x c _ _ e hf => ?_⟩
  have := h 1 c Rounded.fin_one trivial (nanIfException_fin e hf) hf
  simp only [Rounded.val_one, one_mul] at this
  exact this

/-- **C84**: `umath.degrees`. -/
theorem C84_degrees {ε : ℝ} (h : Accurate F .degrees (fun x => x * (180 / Real.pi)) (fun _ => True) ε) :
    Implements1 (MF1.wrapDef .degrees : WrapDef F) (scaleSpec (180 / Real.pi) ε ε) := by
  refine ⟨fun x y hx hd hy hf => h x y hx hd (mapFlt_ok hy) hf, fun x c _ _ e hf => ?_⟩
  have := h 1 c Rounded.fin_one trivial (nanIfException_fin e hf) hf
  simp only [Rounded.val_one, one_mul] at this
  exact this

end

/-! ### Concrete cases: exact arithmetic -/

example : Implements1 (MF1.wrapDef .expm1 : WrapDef NR) (expm1Spec 1 0 0) ∧ (expm1Spec 1 0 0).Smooth :=
  ⟨C84_expm1 (NR.accurate (fun _ => rfl) _) (NR.accurate (fun _ => rfl) _), expm1Spec_smooth le_rfl le_rfl⟩

example : Implements1 (MF1.wrapDef .sinh : WrapDef NR) (sinhSpec 1 0 0) ∧ (sinhSpec 1 0 0).Smooth :=
  ⟨C84_sinh (NR.accurate (fun _ => rfl) _) (NR.accurate (fun _ => rfl) _), sinhSpec_smooth zero_le_one le_rfl le_rfl⟩

example : Implements1 (MF1.wrapDef .cosh : WrapDef NR) (coshSpec 1 0 0) ∧ (coshSpec 1 0 0).Smooth :=
  ⟨C84_cosh (NR.accurate (fun _ => rfl) _) (NR.accurate (fun _ => rfl) _), coshSpec_smooth zero_le_one le_rfl le_rfl⟩

example : Implements1 (MF1.wrapDef .tanh : WrapDef NR) (tanhSpec (Rounded.u NR) (Rounded.η NR) 0) ∧
    (tanhSpec (Rounded.u NR) (Rounded.η NR) 0).Smooth :=
  ⟨C84_tanh (NR.accurate (fun _ => rfl) _), tanhSpec_smooth le_rfl le_rfl le_rfl⟩

example : Implements1 (MF1.wrapDef .radians : WrapDef NR) (scaleSpec (Real.pi / 180) 0 0) ∧
    (scaleSpec (Real.pi / 180) 0 0).Smooth :=
  ⟨C84_radians (NR.accurate (fun x => by simp only [NR.mathReal, mul_div_assoc]) _), scaleSpec_smooth le_rfl le_rfl⟩

example : Implements1 (MF1.wrapDef .degrees : WrapDef NR) (scaleSpec (180 / Real.pi) 0 0) ∧
    (scaleSpec (180 / Real.pi) 0 0).Smooth :=
  ⟨C84_degrees (NR.accurate (fun x => by simp only [NR.mathReal, mul_div_assoc]) _), scaleSpec_smooth le_rfl le_rfl⟩

end Unc
