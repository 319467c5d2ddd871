import Mathlib.Probability.ProbabilityMassFunction.Integrals
import Mathlib.Probability.Distributions.Uniform
import Verif.Lemmas.RandomAffine
import Verif.Props.C84_Covariance
import Verif.Py.NRRounded
import Verif.Props.Examples

/-
C95: the meaning of uncertainties. The values of the variables are random variables of the theory of probability
(`Spec/Random.lean`); nominal values, standard deviations and covariances are those of the results.
-/

namespace Unc

set_option autoImplicit false

open MeasureTheory ProbabilityTheory Filter Topology

section
variable {F : Type} [PyMath F] [Halts F] [RoundedOps F] {Ω : Type} [MeasurableSpace Ω] {P : Measure Ω} [IsProbabilityMeasure P]

theorem point_cell (s : FState F) (v : VarId) (cell : RVar F) (h : s.vars[v]? = some cell) : s.point v = Rounded.val cell.nom := by
  simp only [FState.point, h]

/-- **C95**, nominal values: if the result of a program is an affine function of the variables, its nominal value is the mean of
the result, for all distributions of the values of the variables (up to the bound of C84 on rounding errors). -/
theorem C95_nominal (S : FnSpecs) (cs : List (Cmd F)) (hS : S.Right (fnsOf cs)) (hc : ∀ c ∈ cs, c.IsCalc S)
    (hfin : ∀ (k : ℕ) (y : F), sees cs (.nominal (.ref k)) = .val (.flt y) → Rounded.Fin y)
    (k : ℕ) (φ : Formula) (hk : (formulas S cs).env[k]? = some (some φ))
    (hs : φ.Safe (Rounded.u F) (Rounded.η F) (formulas S cs).point) (ha : φ.IsAffine (formulas S cs).vars.length)
    (X : VarId → Ω → ℝ) (hX : RandomValues P (formulas S cs).vars X) (y : F)
    (h : sees cs (.nominal (.ref k)) = .val (.flt y)) :
    |Rounded.val y - ∫ ω, φ.random X ω ∂P| ≤ φ.err (Rounded.u F) (Rounded.η F) (formulas S cs).point := by
  rw [hX.affine_mean ha (formulas S cs).point (point_cell _)]
  exact C84_nominal S cs hS hc hfin k φ hk hs y h

/-- **C95**, covariances: idem for the elements of the covariance matrix. -/
theorem C95_covariance (S : FnSpecs) (cs : List (Cmd F)) (hS : S.Right (fnsOf cs)) (hc : ∀ c ∈ cs, c.IsCalc S)
    (hfin : ∀ (k : ℕ) (y : F), sees cs (.nominal (.ref k)) = .val (.flt y) → Rounded.Fin y)
    (xs : List (Arg F)) (M : List (List F)) (h : sees cs (.covarianceMatrix xs) = .matrix M) (i j k l : ℕ)
    (hi : xs[i]? = some (.ref k)) (hj : xs[j]? = some (.ref l)) (φ ψ : Formula)
    (hk : (formulas S cs).env[k]? = some (some φ)) (hl : (formulas S cs).env[l]? = some (some ψ))
    (hsφ : φ.Safe (Rounded.u F) (Rounded.η F) (formulas S cs).point)
    (hsψ : ψ.Safe (Rounded.u F) (Rounded.η F) (formulas S cs).point)
    (haφ : φ.IsAffine (formulas S cs).vars.length) (haψ : ψ.IsAffine (formulas S cs).vars.length)
    (X : VarId → Ω → ℝ) (hX : RandomValues P (formulas S cs).vars X) (y : F) (hy : entry M i j = some y) (hf : Rounded.Fin y) :
    |Rounded.val y - cov[φ.random X, ψ.random X; P]| ≤ φ.covBound ψ (formulas S cs).point (formulas S cs).vars := by
  rw [hX.affine_cov haφ haψ (formulas S cs).point]
  exact C84_covariance S cs hS hc hfin xs M h i j k l hi hj φ ψ hk hl hsφ hsψ y hy hf

theorem affine_std {vars : List (RVar F)} {X : VarId → Ω → ℝ} (hX : RandomValues P vars X) {φ : Formula}
    (ha : φ.IsAffine vars.length) (n : VarId → ℝ) : √(Var[φ.random X; P]) = φ.std n vars := by
  rw [← covariance_self (hX.affine_memLp ha).aemeasurable, hX.affine_cov ha ha n, C84_variance]
  exact Real.sqrt_sq (Real.sqrt_nonneg _)

/-- **C95**, standard deviations: idem; the standard deviation is that of the result. -/
theorem C95_std_dev (S : FnSpecs) (cs : List (Cmd F)) (hS : S.Right (fnsOf cs)) (hc : ∀ c ∈ cs, c.IsCalc S)
    (hfin : ∀ (k : ℕ) (y : F), sees cs (.nominal (.ref k)) = .val (.flt y) → Rounded.Fin y)
    (k : ℕ) (φ : Formula) (hk : (formulas S cs).env[k]? = some (some φ))
    (hs : φ.Safe (Rounded.u F) (Rounded.η F) (formulas S cs).point) (ha : φ.IsAffine (formulas S cs).vars.length)
    (X : VarId → Ω → ℝ) (hX : RandomValues P (formulas S cs).vars X) (y : F)
    (h : sees cs (.stdDev (.ref k)) = .val (.flt y) ∨ sees cs (.s (.ref k)) = .val (.flt y)) (hf : Rounded.Fin y) :
    |Rounded.val y - √(Var[φ.random X; P])| ≤ φ.stdBound (formulas S cs).point (formulas S cs).vars := by
  rw [affine_std hX ha (formulas S cs).point]
  exact C84_std_dev S cs hS hc hfin k φ hk hs y h hf

/-! ### Results that are not affine -/

/-- **C95**, first order, nominal values: for all results, when the uncertainties of all the variables are multiplied by a small
number `t`, the mean of the result is its nominal value, with an error that is negligible with respect to the uncertainties. -/
theorem C95_first_order_nominal (S : FnSpecs) (cs : List (Cmd F)) (hS : S.Right (fnsOf cs)) (hc : ∀ c ∈ cs, c.IsCalc S)
    (hfin : ∀ (k : ℕ) (y : F), sees cs (.nominal (.ref k)) = .val (.flt y) → Rounded.Fin y)
    (k : ℕ) (φ : Formula) (hk : (formulas S cs).env[k]? = some (some φ))
    (hs : φ.Safe (Rounded.u F) (Rounded.η F) (formulas S cs).point) (hm : φ.MeasurableFns)
    (Z : VarId → Ω → ℝ) (hZ : Noise P (formulas S cs).vars.length Z) (y : F)
    (h : sees cs (.nominal (.ref k)) = .val (.flt y)) :
    ∃ x : ℝ, Tendsto (fun t => (∫ ω, φ.random (scaledValues (formulas S cs).point (formulas S cs).vars Z t) ω ∂P - x) / t)
        (𝓝[≠] 0) (𝓝 0) ∧
      |Rounded.val y - x| ≤ φ.err (Rounded.u F) (Rounded.η F) (formulas S cs).point :=
  ⟨_, mean_limit Rounded.u_nonneg Rounded.η_nonneg _ hZ φ hs hm, C84_nominal S cs hS hc hfin k φ hk hs y h⟩

/-- **C95**, first order, covariances: idem; the covariances are those of the results, to first order in the variances. -/
theorem C95_first_order_covariance (S : FnSpecs) (cs : List (Cmd F)) (hS : S.Right (fnsOf cs)) (hc : ∀ c ∈ cs, c.IsCalc S)
    (hfin : ∀ (k : ℕ) (y : F), sees cs (.nominal (.ref k)) = .val (.flt y) → Rounded.Fin y)
    (xs : List (Arg F)) (M : List (List F)) (h : sees cs (.covarianceMatrix xs) = .matrix M) (i j k l : ℕ)
    (hi : xs[i]? = some (.ref k)) (hj : xs[j]? = some (.ref l)) (φ ψ : Formula)
    (hk : (formulas S cs).env[k]? = some (some φ)) (hl : (formulas S cs).env[l]? = some (some ψ))
    (hsφ : φ.Safe (Rounded.u F) (Rounded.η F) (formulas S cs).point)
    (hsψ : ψ.Safe (Rounded.u F) (Rounded.η F) (formulas S cs).point) (hmφ : φ.MeasurableFns) (hmψ : ψ.MeasurableFns)
    (Z : VarId → Ω → ℝ) (hZ : Noise P (formulas S cs).vars.length Z) (y : F) (hy : entry M i j = some y) (hf : Rounded.Fin y) :
    ∃ c : ℝ, Tendsto (fun t => cov[φ.random (scaledValues (formulas S cs).point (formulas S cs).vars Z t),
          ψ.random (scaledValues (formulas S cs).point (formulas S cs).vars Z t); P] / t ^ 2) (𝓝[≠] 0) (𝓝 c) ∧
      |Rounded.val y - c| ≤ φ.covBound ψ (formulas S cs).point (formulas S cs).vars :=
  ⟨_, covariance_limit Rounded.u_nonneg Rounded.η_nonneg _ hZ φ ψ hsφ hmφ hsψ hmψ,
    C84_covariance S cs hS hc hfin xs M h i j k l hi hj φ ψ hk hl hsφ hsψ y hy hf⟩

/-- **C95**, first order, standard deviations: idem; the standard deviation is that of the result, to first order. -/
theorem C95_first_order_std_dev (S : FnSpecs) (cs : List (Cmd F)) (hS : S.Right (fnsOf cs)) (hc : ∀ c ∈ cs, c.IsCalc S)
    (hfin : ∀ (k : ℕ) (y : F), sees cs (.nominal (.ref k)) = .val (.flt y) → Rounded.Fin y)
    (k : ℕ) (φ : Formula) (hk : (formulas S cs).env[k]? = some (some φ))
    (hs : φ.Safe (Rounded.u F) (Rounded.η F) (formulas S cs).point) (hm : φ.MeasurableFns)
    (Z : VarId → Ω → ℝ) (hZ : Noise P (formulas S cs).vars.length Z) (y : F)
    (h : sees cs (.stdDev (.ref k)) = .val (.flt y) ∨ sees cs (.s (.ref k)) = .val (.flt y)) (hf : Rounded.Fin y) :
    ∃ s : ℝ, Tendsto (fun t => √(Var[φ.random (scaledValues (formulas S cs).point (formulas S cs).vars Z t); P]) / |t|)
        (𝓝[≠] 0) (𝓝 s) ∧
      |Rounded.val y - s| ≤ φ.stdBound (formulas S cs).point (formulas S cs).vars := by
  refine ⟨_, ?_, C84_std_dev S cs hS hc hfin k φ hk hs y h hf⟩
  have hl := (Real.continuous_sqrt.tendsto _).comp
    (covariance_limit Rounded.u_nonneg Rounded.η_nonneg (formulas S cs).vars hZ φ φ hs hm hs hm)
  rw [C84_variance, Real.sqrt_sq (show 0 ≤ φ.std (formulas S cs).point (formulas S cs).vars from Real.sqrt_nonneg _)] at hl
  refine hl.congr fun t => ?_
  have hmeas := (Formula.random_measurable hm
    (scaledValues_measurable (formulas S cs).point (formulas S cs).vars hZ t)).aemeasurable (μ := P)
  simp only [Function.comp]
  rw [covariance_self hmeas, Real.sqrt_div (variance_nonneg _ _), Real.sqrt_sq_eq_abs]

/-- **C95**: the functions of the formulas of programs which only use operators are measurable. -/
theorem C95_operators (cs : List (Cmd F)) (k : ℕ) (φ : Formula) (hk : (formulas .none cs).env[k]? = some (some φ)) :
    φ.MeasurableFns := (formulas_noFns cs k φ hk).measurableFns

end

/-! ### Exact arithmetic -/

section
variable {Ω : Type} [MeasurableSpace Ω] {P : Measure Ω} [IsProbabilityMeasure P]

/-- **C95**, without rounding errors: nominal values, standard deviations and covariances of affine results are exactly the
means, the standard deviations and the covariances of the results. -/
theorem C95_exact (cs : List (Cmd NR)) (hc : ∀ c ∈ cs, c.IsCalc .none)
    (hfin : ∀ (k : ℕ) (y : NR), sees cs (.nominal (.ref k)) = .val (.flt y) → Rounded.Fin y)
    (k l : ℕ) (φ ψ : Formula) (hk : (formulas .none cs).env[k]? = some (some φ))
    (hl : (formulas .none cs).env[l]? = some (some ψ)) (hsφ : φ.Safe 0 0 (formulas .none cs).point)
    (hsψ : ψ.Safe 0 0 (formulas .none cs).point)
    (haφ : φ.IsAffine (formulas .none cs).vars.length) (haψ : ψ.IsAffine (formulas .none cs).vars.length)
    (X : VarId → Ω → ℝ) (hX : RandomValues P (formulas .none cs).vars X) :
    (∀ m : ℝ, sees cs (.nominal (.ref k)) = .val (.flt (.fin m)) → m = ∫ ω, φ.random X ω ∂P) ∧
    (∀ s : ℝ, sees cs (.stdDev (.ref k)) = .val (.flt (.fin s)) → s = √(Var[φ.random X; P])) ∧
    (∀ (xs : List (Arg NR)) (M : List (List NR)) (i j : ℕ) (c : ℝ), sees cs (.covarianceMatrix xs) = .matrix M →
      xs[i]? = some (.ref k) → xs[j]? = some (.ref l) → entry M i j = some (.fin c) → c = cov[φ.random X, ψ.random X; P]) := by
  have nφ := formulas_noFns cs k φ hk
  have nψ := formulas_noFns cs l ψ hl
  have key : ∀ {a b e : ℝ}, |a - b| ≤ e → e ≤ 0 → a = b := fun h h0 => sub_eq_zero.1 (abs_nonpos_iff.1 (h.trans h0))
  have u0 : Rounded.u NR = 0 := rfl
  have η0 : Rounded.η NR = 0 := rfl
  refine ⟨fun m h => ?_, fun s h => ?_, fun xs M i j c h hi hj he => ?_⟩
  · exact key (C95_nominal .none cs (FnSpecs.none_right _) hc hfin k φ hk hsφ haφ X hX _ h) (nφ.err _).le
  · refine key (C95_std_dev .none cs (FnSpecs.none_right _) hc hfin k φ hk hsφ haφ X hX _ (Or.inl h) trivial) ?_
    have ht : ∀ v, φ.termBound (formulas .none cs).point (formulas .none cs).vars v = 0 := fun v => by
      simp [Formula.termBound, u0, η0, nφ.derivBound]
    simp [Formula.stdBound, u0, η0, l2norm, ht]
  · refine key (C95_covariance .none cs (FnSpecs.none_right _) hc hfin xs M h i j k l hi hj φ ψ hk hl hsφ hsψ haφ haψ X hX _ he
      trivial) ?_
    simp only [Formula.covBound, u0, η0, add_zero, one_pow, one_mul, tsub_le_iff_right, zero_add]
    refine Finset.sum_le_sum fun v _ => ?_
    simp only [Formula.covTermMax, u0, η0, nφ.derivBound, nψ.derivBound, add_zero, one_mul, Formula.covTerm, abs_mul, abs_pow,
      sq_abs]
    split
    · positivity
    · exact le_rfl

end

/-! ### An experiment -/

/-- Two coins. -/
noncomputable def coins : Measure (Bool × Bool) := (PMF.uniformOfFintype (Bool × Bool)).toMeasure

instance : IsProbabilityMeasure coins := by unfold coins; infer_instance

theorem coins_integral (f : Bool × Bool → ℝ) :
    ∫ ω, f ω ∂coins = (f (true, true) + f (true, false) + f (false, true) + f (false, false)) / 4 := by
  unfold coins
  rw [PMF.integral_eq_sum]
  simp [PMF.uniformOfFintype_apply, Fintype.sum_prod_type]
  ring

theorem coins_covariance (f g : Bool × Bool → ℝ) : cov[f, g; coins] =
    ∫ ω, f ω * g ω ∂coins - (∫ ω, f ω ∂coins) * ∫ ω, g ω ∂coins := by
  unfold covariance
  rw [coins_integral, coins_integral f, coins_integral g, coins_integral]
  ring

theorem coins_variance (f : Bool × Bool → ℝ) : Var[f; coins] = ∫ ω, f ω ^ 2 ∂coins - (∫ ω, f ω ∂coins) ^ 2 := by
  rw [← covariance_self (Measurable.of_discrete).aemeasurable, coins_covariance]
  simp only [sq]

def coin (b : Bool) : ℝ := if b then 1 else -1

/-- The values of the coins: ±1. -/
def coinValue (v : VarId) (ω : Bool × Bool) : ℝ := if v = 0 then coin ω.1 else coin ω.2

/-- The values of two coins are a normalized noise. -/
theorem coins_noise : Noise coins 2 coinValue where
  measurable _ _ := Measurable.of_discrete
  bounded := ⟨1, fun v _ ω => by unfold coinValue coin; split <;> split <;> simp⟩
  mean v _ := by
    rw [coins_integral]
    by_cases h : v = 0 <;> simp [coinValue, coin, h]
  variance v _ := by
    rw [coins_variance, coins_integral, coins_integral]
    by_cases h : v = 0 <;> simp [coinValue, coin, h] <;> norm_num
  uncorrelated v hv w hw hne := by
    rw [coins_covariance, coins_integral, coins_integral, coins_integral]
    have : (v = 0 ∧ w = 1) ∨ (v = 1 ∧ w = 0) := by omega
    rcases this with ⟨rfl, rfl⟩ | ⟨rfl, rfl⟩ <;> simp [coinValue, coin]

/-- `z = 2*x - y` with `x = 1±0.5` and `y = 3±0.25`. -/
def exAffine : List (Cmd B64) :=
  [.ufloat (.fin (2 ^ 1074)) (.fin (2 ^ 1073)) none, .ufloat (.fin (3 * 2 ^ 1074)) (.fin (2 ^ 1072)) none,
   .binop .mul (.const (.flt (.fin (2 ^ 1075)))) (.ref 0), .binop .sub (.ref 2) (.ref 1)]

noncomputable def exAffineFormula : Formula :=
  .sub (.mul (.const (Rounded.val (.fin (2 ^ 1075) : B64))) (.var 0)) (.var 1)

theorem exAffine_vars : (formulas .none exAffine).vars = [⟨.fin (2 ^ 1074), .fin (2 ^ 1073)⟩, ⟨.fin (3 * 2 ^ 1074), .fin (2 ^ 1072)⟩] := by
  have h1 : specBadStd (.fin (2 ^ 1073) : B64) = false := by decide +kernel
  have h2 : specBadStd (.fin (2 ^ 1072) : B64) = false := by decide +kernel
  simp [formulas, exAffine, FState.step, h1, h2]

/-- The hypotheses of `C95_nominal`, `C95_std_dev` and `C95_covariance` for `z`, with the two coins: `x` is 1.5 or 0.5, `y` is 3.25
or 2.75. -/
example : (∀ c ∈ exAffine, c.IsCalc .none) ∧
    (∀ (k : ℕ) (y : B64), sees exAffine (.nominal (.ref k)) = .val (.flt y) → Rounded.Fin y) ∧
    (formulas .none exAffine).env[3]? = some (some exAffineFormula) ∧
    exAffineFormula.Safe (Rounded.u B64) (Rounded.η B64) (formulas .none exAffine).point ∧
    exAffineFormula.IsAffine (formulas .none exAffine).vars.length ∧
    RandomValues coins (formulas .none exAffine).vars
      (scaledValues (formulas .none exAffine).point (formulas .none exAffine).vars coinValue 1) ∧
    (sees exAffine (.nominal (.ref 3))).isFinite = true ∧ (sees exAffine (.stdDev (.ref 3))).isFinite = true ∧
    (sees exAffine (.covarianceMatrix [.ref 3, .ref 0])).finiteEntry 0 1 = true := by
  refine ⟨?_, ?_, ?_, ⟨⟨trivial, trivial⟩, trivial⟩, ?_, ?_, by decide +kernel, by decide +kernel, by decide +kernel⟩
  · intro c hc
    simp only [exAffine, List.mem_cons, List.not_mem_nil, or_false] at hc
    rcases hc with rfl | rfl | rfl | rfl <;> simp only [Cmd.IsCalc, Arg.IsOperand, true_or, or_true, and_self, and_true, true_and]
    trivial
  · intro k y h
    by_cases hk : k < 4
    · have h1 : ((List.range 4).all fun k => (sees exAffine (.nominal (.ref k))).isFinite) = true := by decide +kernel
      exact Out.isFinite_fin (List.all_eq_true.mp h1 k (List.mem_range.mpr hk)) h
    · have h1 : (after exAffine).env.length = 4 := by decide +kernel
      have h2 : (after exAffine).env[k]? = none := List.getElem?_eq_none (by omega)
      simp only [sees, Machine.step, Arg.eval, h2] at h
      cases h
  · have h1 : specBadStd (.fin (2 ^ 1073) : B64) = false := by decide +kernel
    have h2 : specBadStd (.fin (2 ^ 1072) : B64) = false := by decide +kernel
    simp only [formulas, exAffine, FState.step, h1, h2, Arg.formula, exAffineFormula, List.foldl]
    rfl
  · rw [exAffine_vars]
    refine ⟨0, fun v => if v = 0 then Rounded.val (.fin (2 ^ 1075) : B64) else -1, fun p => ?_⟩
    simp only [exAffineFormula, Formula.eval, List.length_cons, List.length_nil, Finset.sum_range_succ, Finset.sum_range_zero]
    simp
    ring
  · refine Noise.randomValues ?_ _ (point_cell _)
    rw [exAffine_vars]
    exact coins_noise

/-- The hypotheses of `C95_first_order_nominal`, `C95_first_order_std_dev`, `C95_first_order_covariance` and `C95_operators`: the
program of C84, which calculates `abs(x/y - 1)*x`. -/
example : (∀ c ∈ exC84, c.IsCalc .none) ∧ (formulas .none exC84).env[5]? = some (some exFormula) ∧
    exFormula.Safe (Rounded.u B64) (Rounded.η B64) (formulas .none exC84).point ∧ exFormula.MeasurableFns ∧
    Noise coins (formulas .none exC84).vars.length coinValue :=
  ⟨exC84_safe.1, exC84_safe.2.1, exC84_safe.2.2, C95_operators _ _ _ exC84_safe.2.1, by rw [exC84_vars]; exact coins_noise⟩

/-- `x - y` with `x = 3±2` and `y = 5±1`, in exact arithmetic. -/
noncomputable def exDifference : List (Cmd NR) :=
  [.ufloat (.fin 3) (.fin 2) none, .ufloat (.fin 5) (.fin 1) none, .binop .sub (.ref 0) (.ref 1)]

noncomputable def exDifferenceState : SState NR :=
  ⟨[⟨.fin 3, .fin 2, none⟩, ⟨.fin 5, .fin 1, none⟩], opDefs,
   [some (.unc ⟨.fin 3, Lin.single 0, some 0⟩), some (.unc ⟨.fin 5, Lin.single 1, some 1⟩),
    some (.unc ⟨.fin (-2), Lin.comb [(.fin 1, Lin.single 0), (.fin (-1), Lin.single 1)], none⟩)]⟩

theorem exDifference_reaches : Reaches exDifference exDifferenceState := by
  have b2 : specBadStd (.fin 2 : NR) = false := by simp [specBadStd, PyFloat.ltb]
  have b1 : specBadStd (.fin 1 : NR) = false := by simp [specBadStd, PyFloat.ltb]
  have h0 : Reaches ([] : List (Cmd NR)) SState.init := Reaches.nil
  have h1 := (h0.ufloat (n := .fin 3) none b2).2
  have h2 := (h1.ufloat (n := .fin 5) none b1).2
  have r3 : specBinop .sub (.unc ⟨(.fin 3 : NR), Lin.single 0, some 0⟩) (.unc ⟨.fin 5, Lin.single 1, some 1⟩) =
      .ok (.unc ⟨.fin (-2), Lin.comb [(.fin 1, Lin.single 0), (.fin (-1), Lin.single 1)], none⟩) :=
    specBinop_unc_unc (z := NR.fin (-2)) (a := NR.fin 1) (b := NR.fin (-1))
      (by simp only [BinOp.onFloats, NR.fin_sub]; norm_num) rfl rfl
  exact (h2.binop (x := .ref 0) (y := .ref 1) rfl rfl r3 rfl).2

/-- The hypotheses of `C95_exact`, for `x - y` and `x`. -/
example : (∀ c ∈ exDifference, c.IsCalc .none) ∧
    (∀ (k : ℕ) (y : NR), sees exDifference (.nominal (.ref k)) = .val (.flt y) → Rounded.Fin y) ∧
    (formulas .none exDifference).env[2]? = some (some (.sub (.var 0) (.var 1))) ∧
    (Formula.sub (.var 0) (.var 1)).IsAffine (formulas .none exDifference).vars.length ∧
    (formulas .none exDifference).env[0]? = some (some (.var 0)) ∧
    (Formula.var 0).IsAffine (formulas .none exDifference).vars.length ∧
    RandomValues coins (formulas .none exDifference).vars
      (scaledValues (formulas .none exDifference).point (formulas .none exDifference).vars coinValue 1) ∧
    sees exDifference (.nominal (.ref 2)) = .val (.flt (.fin (-2))) := by
  have b2 : specBadStd (.fin 2 : NR) = false := by simp [specBadStd, PyFloat.ltb]
  have b1 : specBadStd (.fin 1 : NR) = false := by simp [specBadStd, PyFloat.ltb]
  have hv : (formulas .none exDifference).vars = [⟨.fin 3, .fin 2⟩, ⟨.fin 5, .fin 1⟩] := by
    simp [formulas, exDifference, FState.step, b1, b2]
  have hn : ∀ k, sees exDifference (.nominal (.ref k)) = _ := fun k => (exDifference_reaches.read (c := .nominal (.ref k)) rfl).1
  refine ⟨?_, ?_, ?_, ?_, ?_, ?_, ?_, ?_⟩
  · intro c hc
    simp only [exDifference, List.mem_cons, List.not_mem_nil, or_false] at hc
    rcases hc with rfl | rfl | rfl <;> simp only [Cmd.IsCalc, Arg.IsOperand, true_or, or_true, and_self]
  · intro k y h
    rw [hn] at h
    match k, h with
    | 0, h => cases h; trivial
    | 1, h => cases h; trivial
    | 2, h => cases h; trivial
    | k + 3, h => cases h
  · simp only [formulas, exDifference, FState.step, b1, b2, Arg.formula, List.foldl]
    rfl
  · rw [hv]
    refine ⟨0, fun v => if v = 0 then 1 else -1, fun p => ?_⟩
    simp [Formula.eval, Finset.sum_range_succ]
    ring
  · simp only [formulas, exDifference, FState.step, b1, b2, Arg.formula, List.foldl]
    rfl
  · rw [hv]
    refine ⟨0, fun v => if v = 0 then 1 else 0, fun p => ?_⟩
    simp [Formula.eval, Finset.sum_range_succ]
  · refine Noise.randomValues ?_ _ (point_cell _)
    rw [hv]
    exact coins_noise
  · rw [hn]; rfl

/-! ### Results that are not affine: large uncertainties -/

theorem zero_of_sees {o : Out B64} (h : (match o with | .val (.flt y) => decide (y = .fin 0) | _ => false) = true) :
    o = .val (.flt (.fin 0)) := by
  split at h
  · rw [of_decide_eq_true h]
  · cases h

/-- `x*x` with `x = 0±1`. -/
def exSquared : List (Cmd B64) := [.ufloat (.fin 0) (.fin (2 ^ 1074)) none, .binop .mul (.ref 0) (.ref 0)]

/-- √2, -√2 or (with a probability of 1/2) 0. -/
noncomputable def threeValues (_ : VarId) (ω : Bool × Bool) : ℝ := if ω.1 then √2 * coin ω.2 else 0

/-- **C95**: the hypothesis that results are affine is necessary, as the documentation of the package says. With
`x = ufloat(0, 1)`, `x*x` has the nominal value 0 and the standard deviation 0, but its mean and its standard deviation can be 1. -/
theorem C95_not_affine : ∃ φ : Formula, (formulas .none exSquared).env[1]? = some (some φ) ∧
    sees exSquared (.nominal (.ref 1)) = .val (.flt (.fin 0)) ∧ sees exSquared (.stdDev (.ref 1)) = .val (.flt (.fin 0)) ∧
    RandomValues coins (formulas .none exSquared).vars threeValues ∧
    ∫ ω, φ.random threeValues ω ∂coins = 1 ∧ √(Var[φ.random threeValues; coins]) = 1 := by
  have h1 : specBadStd (.fin (2 ^ 1074) : B64) = false := by decide +kernel
  have hv : (formulas .none exSquared).vars = [⟨.fin 0, .fin (2 ^ 1074)⟩] := by
    simp [formulas, exSquared, FState.step, h1]
  have s2 : √(2 : ℝ) * √2 = 2 := Real.mul_self_sqrt (by norm_num)
  refine ⟨.mul (.var 0) (.var 0), ?_, zero_of_sees (by decide +kernel), zero_of_sees (by decide +kernel), ?_, ?_, ?_⟩
  · simp only [formulas, exSquared, FState.step, h1, Arg.formula, List.foldl]
    rfl
  · rw [hv]
    have hlen : ∀ v < 1, v = 0 := by omega
    refine ⟨fun v _ => ?_, fun v cell hc => ?_, fun v cell hc => ?_, fun v hv w hw hne => ?_⟩
    · refine memLp_bounded (a := √2) Measurable.of_discrete fun ω => ?_
      unfold threeValues coin
      split
      · split <;> simp [abs_of_nonneg (Real.sqrt_nonneg 2)]
      · simp
    · obtain ⟨hv, rfl⟩ := List.getElem?_eq_some_iff.1 hc
      have e := hlen v hv
      subst e
      rw [coins_integral]
      simp [threeValues, coin, Rounded.val, B64.val]
    · obtain ⟨hv, rfl⟩ := List.getElem?_eq_some_iff.1 hc
      have e := hlen v hv
      subst e
      rw [coins_variance, coins_integral, coins_integral]
      have e1 : Rounded.val (.fin (2 ^ 1074) : B64) = 1 := Rounded.val_one (F := B64)
      simp only [List.getElem_cons_zero, e1]
      simp [threeValues, coin]
      norm_num
    · exact (hne ((hlen v hv).trans (hlen w hw).symm)).elim
  · rw [coins_integral]
    simp [Formula.random, Formula.eval, threeValues, coin, s2]
    norm_num
  · rw [coins_variance, coins_integral, coins_integral]
    simp [Formula.random, Formula.eval, threeValues, coin, s2]
    norm_num

end Unc
