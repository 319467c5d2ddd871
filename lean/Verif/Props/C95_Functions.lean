import Verif.Props.C95_Random
import Verif.Props.C84_Umath4
import Verif.Props.C84_Power
import Verif.Props.C84_Functions
import Mathlib.MeasureTheory.Function.SpecialFunctions.Basic
import Mathlib.MeasureTheory.Function.SpecialFunctions.Arctan
import Mathlib.MeasureTheory.Function.SpecialFunctions.Inner

/-!
**C95**, the functions of the package: the theorems on first order apply to calculations with the functions of `umath` and with
powers, because all these functions are measurable.
-/

set_option autoImplicit false

namespace Unc

/-- All the functions are measurable. -/
structure FnSpecs.Measurable (S : FnSpecs) : Prop where
  one : ∀ f s, S.one f = some s → _root_.Measurable s.g
  two : ∀ f s, S.two f = some s → _root_.Measurable fun p : ℝ × ℝ => s.g p.1 p.2
  powc : ∀ c s, S.powc c = some s → _root_.Measurable s.g
  pow : ∀ s, S.pow = some s → _root_.Measurable fun p : ℝ × ℝ => s.g p.1 p.2

/-- **C95**: the results of calculations with measurable functions are measurable. -/
theorem C95_functions {F : Type} [PyFloat F] [Rounded F] (S : FnSpecs) (hS : S.Measurable) (cs : List (Cmd F)) (k : ℕ)
    (φ : Formula) (h : (formulas S cs).env[k]? = some (some φ)) : φ.MeasurableFns := by
  have key : ∀ (cs : List (Cmd F)) (s : FState F), (∀ ψ, some ψ ∈ s.env → ψ.MeasurableFns) →
      ∀ ψ, some ψ ∈ (cs.foldl (FState.step S) s).env → ψ.MeasurableFns := by
    intro cs
    induction cs with
    | nil => exact fun s hs => hs
    | cons c cs ih =>
      intro s hs
      refine ih _ fun ψ hψ => ?_
      have harg : ∀ (x : Arg F) a, x.formula s.env = some a → a.MeasurableFns := by
        intro x a hx
        cases x with
        | ref k => exact hs a (List.mem_of_getElem? (Option.join_eq_some_iff.1 hx))
        | const c =>
          cases c <;> simp only [Arg.formula, Option.some.injEq, reduceCtorEq] at hx
          subst hx
          trivial
      have happ : ∀ o : Option Formula, (∀ a, o = some a → a.MeasurableFns) → some ψ ∈ s.env ++ [o] → ψ.MeasurableFns := by
        intro o ho hm
        rcases List.mem_append.1 hm with hm | hm
        · exact hs _ hm
        · exact ho _ (List.mem_singleton.1 hm).symm
      unfold FState.step at hψ
      split at hψ
      · split at hψ
        · exact happ _ (by simp) hψ
        · exact happ _ (by rintro a ⟨⟩; trivial) hψ
      · rename_i op x
        refine happ _ (fun a ha => ?_) hψ
        obtain ⟨b, hb, hop⟩ := Option.bind_eq_some_iff.1 ha
        have := harg _ _ hb
        cases op <;> simp only [UnOp.formula, Option.some.injEq, reduceCtorEq] at hop <;> subst hop <;> exact this
      · rename_i op x y
        refine happ _ (fun a ha => ?_) hψ
        obtain ⟨b, hb, ha⟩ := Option.bind_eq_some_iff.1 ha
        obtain ⟨c, hc, hop⟩ := Option.bind_eq_some_iff.1 ha
        have h1 := harg _ _ hb
        have h2 := harg _ _ hc
        cases op <;> simp only [FnSpecs.binop, BinOp.formula, Option.some.injEq, reduceCtorEq] at hop
        all_goals first | (subst hop; exact ⟨h1, h2⟩) | skip
        cases c <;> simp only [FnSpecs.powFormula, Option.map_eq_some_iff] at hop <;> obtain ⟨sp, hsp, rfl⟩ := hop
        case const c => exact ⟨hS.powc _ _ hsp, h1⟩
        all_goals exact ⟨hS.pow _ hsp, h1, h2⟩
      · rename_i f x
        refine happ _ (fun a ha => ?_) hψ
        obtain ⟨sp, hsp, ha⟩ := Option.bind_eq_some_iff.1 ha
        obtain ⟨b, hb, rfl⟩ := Option.map_eq_some_iff.1 ha
        exact ⟨hS.one _ _ hsp, harg _ _ hb⟩
      · rename_i f x y
        refine happ _ (fun a ha => ?_) hψ
        obtain ⟨sp, hsp, ha⟩ := Option.bind_eq_some_iff.1 ha
        obtain ⟨b, hb, ha⟩ := Option.bind_eq_some_iff.1 ha
        obtain ⟨c, hc, rfl⟩ := Option.map_eq_some_iff.1 ha
        exact ⟨hS.two _ _ hsp, harg _ _ hb, harg _ _ hc⟩
      · split at hψ
        · split at hψ
          · split at hψ
            · exact hs _ hψ
            · exact hs _ hψ
          · exact hs _ hψ
        · exact hs _ hψ
      · exact hs _ hψ
  exact key cs ⟨[], []⟩ (by simp) φ (List.mem_of_getElem? h)

/-- **C95**: the functions of `umath` of one argument, the square root and the powers are measurable. -/
theorem C95_umath : (∀ g ∈ ([Real.sin, Real.cos, Real.tan, Real.exp, Real.log, Real.sinh, Real.cosh, Real.tanh, Real.arcsin,
      Real.arccos, Real.arctan, Real.arsinh, Real.arcosh, Real.artanh, Real.sqrt, NR.erfReal, fun x => 1 - NR.erfReal x,
      fun x => Real.exp x - 1, fun x => Real.log (1 + x), fun x => Real.log x / Real.log 10, fun x => |x|] : List (ℝ → ℝ)),
      Measurable g) ∧
    (∀ n : ℕ, Measurable fun x : ℝ => x ^ n) ∧ (∀ r : ℝ, Measurable fun x : ℝ => x ^ r) ∧ ∀ c : ℝ, Measurable fun x : ℝ => x * c := by
  refine ⟨?_, fun n => by fun_prop, fun r => by fun_prop, fun c => by fun_prop⟩
  have herf : Measurable NR.erfReal :=
    (continuous_iff_continuousAt.2 fun x => (erf_deriv' x).continuousAt).measurable
  have htan : Measurable Real.tan := by
    rw [show Real.tan = fun x => Real.sin x / Real.cos x from funext Real.tan_eq_sin_div_cos]
    fun_prop
  have htanh : Measurable Real.tanh := by
    rw [show Real.tanh = fun x => Real.sinh x / Real.cosh x from funext Real.tanh_eq_sinh_div_cosh]
    fun_prop
  have hcosh : Measurable Real.arcosh := by unfold Real.arcosh; fun_prop
  have htanh' : Measurable Real.artanh := by unfold Real.artanh; fun_prop
  simp only [List.mem_cons, List.not_mem_nil, or_false]
  rintro g (rfl | rfl | rfl | rfl | rfl | rfl | rfl | rfl | rfl | rfl | rfl | rfl | rfl | rfl | rfl | rfl | rfl | rfl | rfl | rfl |
    rfl)
  · fun_prop
  · fun_prop
  · exact htan
  · fun_prop
  · fun_prop
  · exact Real.continuous_sinh.measurable
  · exact Real.continuous_cosh.measurable
  · exact htanh
  · exact Real.continuous_arcsin.measurable
  · exact Real.continuous_arccos.measurable
  · exact Real.continuous_arctan.measurable
  · exact Real.continuous_arsinh.measurable
  · exact hcosh
  · exact htanh'
  · exact Real.continuous_sqrt.measurable
  · exact herf
  · exact measurable_const.sub herf
  · fun_prop
  · fun_prop
  · fun_prop
  · exact continuous_abs.measurable

/-- **C95**: idem for `hypot`, `atan2`, `copysign` and `pow`. -/
theorem C95_umath2 : ∀ g ∈ ([fun x y => √(x ^ 2 + y ^ 2), fun y x => Real.arctan (y / x), fun x y => sign1 y * |x|,
      fun x y => x ^ y] : List (ℝ → ℝ → ℝ)), Measurable fun p : ℝ × ℝ => g p.1 p.2 := by
  have hs : Measurable sign1 :=
    Measurable.ite measurableSet_Ioi measurable_const measurable_const
  simp only [List.mem_cons, List.not_mem_nil, or_false]
  rintro g (rfl | rfl | rfl | rfl)
  · fun_prop
  · exact Real.measurable_arctan.comp (measurable_fst.div measurable_snd)
  · exact (hs.comp measurable_snd).mul (continuous_abs.measurable.comp measurable_fst)
  · exact measurable_fst.pow measurable_snd

/-- The functions of the descriptions of C84. -/
example (u η a b c d A ε δ κ k r : ℝ) (n : ℕ) : (sinSpec ε δ).g = Real.sin ∧ (tanSpec u η b ε).g = Real.tan ∧
    (erfSpec u η b ε δ κ).g = NR.erfReal ∧
    (acoshSpec u η a ε).g = Real.arcosh ∧ (copysignSpec a A b ε).g = (fun x y => sign1 y * |x|) := ⟨rfl, rfl, rfl, rfl, rfl⟩

/-- The hypothesis of `C95_functions`, for `sqrt(x)*x` and `x**3*x`. -/
example : exSqrtSpecs.Measurable ∧ exPowSpecs.Measurable := by
  refine ⟨⟨fun f s h => ?_, fun f s h => ?_, fun c s h => ?_, fun s h => ?_⟩,
    ⟨fun f s h => ?_, fun f s h => ?_, fun c s h => ?_, fun s h => ?_⟩⟩
  · simp only [exSqrtSpecs] at h
    split at h <;> cases h
    exact C95_umath.1 _ (by simp [sqrtSpec])
  · cases h
  · cases h
  · cases h
  · cases h
  · cases h
  · simp only [exPowSpecs] at h
    split at h <;> cases h
    exact C95_umath.2.1 3
  · cases h

end Unc
