import Verif.Lemmas.Random
import Verif.Py.RoundedOps

/-! Affine formulas of random variables, and formulas without rounding errors. -/

namespace Unc

set_option autoImplicit false

open MeasureTheory ProbabilityTheory

section
variable {F : Type} [PyFloat F] [Rounded F] {Ω : Type} [MeasurableSpace Ω] {P : Measure Ω} [IsProbabilityMeasure P]

/-- An affine formula, with its coefficients. -/
def Formula.AffineWith (φ : Formula) (k : ℕ) (c : ℝ) (a : VarId → ℝ) : Prop :=
  ∀ p : VarId → ℝ, φ.eval p = c + ∑ v ∈ Finset.range k, a v * p v

theorem Formula.AffineWith.partialAt {φ : Formula} {k : ℕ} {c : ℝ} {a : VarId → ℝ} (h : φ.AffineWith k c a) (n : VarId → ℝ)
    (v : VarId) (hv : v < k) : φ.partialAt n v = a v := by
  unfold Formula.partialAt
  have e : (fun t => φ.eval (Function.update n v t)) =
      fun t => (c + ∑ w ∈ (Finset.range k).erase v, a w * n w) + a v * t := by
    funext t
    rw [h, ← Finset.add_sum_erase _ _ (Finset.mem_range.2 hv), Function.update_self]
    have : ∑ w ∈ (Finset.range k).erase v, a w * Function.update n v t w = ∑ w ∈ (Finset.range k).erase v, a w * n w :=
      Finset.sum_congr rfl fun w hw => by rw [Function.update_of_ne (Finset.ne_of_mem_erase hw)]
    rw [this]
    ring
  rw [e]
  simpa using (((hasDerivAt_id (n v)).const_mul (a v)).const_add
    (c + ∑ w ∈ (Finset.range k).erase v, a w * n w)).deriv

theorem Formula.AffineWith.random {φ : Formula} {k : ℕ} {c : ℝ} {a : VarId → ℝ} (h : φ.AffineWith k c a) (X : VarId → Ω → ℝ) :
    φ.random X = fun ω => c + ∑ v ∈ Finset.range k, a v * X v ω := by
  funext ω
  exact h _

theorem RandomValues.linear_memLp {vars : List (RVar F)} {X : VarId → Ω → ℝ} (hX : RandomValues P vars X) (a : VarId → ℝ) :
    MemLp (fun ω => ∑ v ∈ Finset.range vars.length, a v * X v ω) 2 P :=
  memLp_finset_sum _ fun v hv => (hX.memLp v (Finset.mem_range.1 hv)).const_mul (a v)

theorem RandomValues.affine_mean {vars : List (RVar F)} {X : VarId → Ω → ℝ} (hX : RandomValues P vars X) {φ : Formula}
    (h : φ.IsAffine vars.length) (n : VarId → ℝ) (hn : ∀ v cell, vars[v]? = some cell → n v = Rounded.val cell.nom) :
    ∫ ω, φ.random X ω ∂P = φ.eval n := by
  obtain ⟨c, a, h⟩ := h
  have h : φ.AffineWith _ c a := h
  rw [h.random, h n]
  change ∫ ω, (c + ∑ v ∈ Finset.range vars.length, a v * X v ω) ∂P = _
  rw [integral_add (integrable_const _) ((hX.linear_memLp a).integrable (by norm_num)),
    integral_finset_sum _ fun v hv => ((hX.memLp v (Finset.mem_range.1 hv)).integrable (by norm_num)).const_mul _]
  simp only [integral_const, probReal_univ, smul_eq_mul, one_mul, add_right_inj]
  refine Finset.sum_congr rfl fun v hv => ?_
  have hg := List.getElem?_eq_getElem (Finset.mem_range.1 hv)
  rw [integral_const_mul, hX.mean v _ hg, hn v _ hg]

theorem RandomValues.affine_cov {vars : List (RVar F)} {X : VarId → Ω → ℝ} (hX : RandomValues P vars X) {φ ψ : Formula}
    (hφ : φ.IsAffine vars.length) (hψ : ψ.IsAffine vars.length) (n : VarId → ℝ) :
    cov[φ.random X, ψ.random X; P] = φ.cov ψ n vars := by
  obtain ⟨c, a, hφ⟩ := hφ
  have hφ : φ.AffineWith _ c a := hφ
  obtain ⟨d, b, hψ⟩ := hψ
  have hψ : ψ.AffineWith _ d b := hψ
  rw [hφ.random, hψ.random, covariance_const_add_left ((hX.linear_memLp a).integrable (by norm_num)),
    covariance_const_add_right ((hX.linear_memLp b).integrable (by norm_num)), covariance_linear _ hX.memLp hX.uncorrelated]
  refine Finset.sum_congr rfl fun v hv => ?_
  have hv := Finset.mem_range.1 hv
  have hg := List.getElem?_eq_getElem hv
  rw [Formula.covTerm, hφ.partialAt n v hv, hψ.partialAt n v hv, hX.variance v _ hg]
  simp only [stdOf, hg]

theorem RandomValues.affine_memLp {vars : List (RVar F)} {X : VarId → Ω → ℝ} (hX : RandomValues P vars X) {φ : Formula}
    (hφ : φ.IsAffine vars.length) : MemLp (φ.random X) 2 P := by
  obtain ⟨c, a, hφ⟩ := hφ
  have hφ : φ.AffineWith _ c a := hφ
  rw [hφ.random]
  exact (memLp_const c).add (hX.linear_memLp a)

/-- Random values made from noise. -/
theorem Noise.randomValues {vars : List (RVar F)} {Z : VarId → Ω → ℝ} (hZ : Noise P vars.length Z) (n : VarId → ℝ)
    (hn : ∀ v cell, vars[v]? = some cell → n v = Rounded.val cell.nom) : RandomValues P vars (scaledValues n vars Z 1) := by
  obtain ⟨B, hB⟩ := hZ.bounded
  have hl : ∀ v < vars.length, MemLp (Z v) 2 P := fun v hv => memLp_bounded (hZ.measurable v hv) (hB v hv)
  have hm : ∀ v < vars.length, MemLp (fun ω => stdOf vars v * Z v ω) 2 P := fun v hv => (hl v hv).const_mul _
  have hi : ∀ v < vars.length, Integrable (fun ω => stdOf vars v * Z v ω) P := fun v hv => (hm v hv).integrable (by norm_num)
  have ha : ∀ v < vars.length, MemLp (fun ω => n v + stdOf vars v * Z v ω) 2 P := fun v hv =>
    MemLp.add (f := fun _ => n v) (memLp_const (n v)) (hm v hv)
  have e : scaledValues n vars Z 1 = fun v ω => n v + stdOf vars v * Z v ω := by
    funext v ω; simp only [scaledValues, one_mul]
  rw [e]
  constructor
  · exact ha
  · intro v cell hc
    have hv := (List.getElem?_eq_some_iff.1 hc).1
    rw [integral_add (integrable_const _) (hi v hv), integral_const_mul, hZ.mean v hv, ← hn v cell hc]
    simp
  · intro v cell hc
    have hv := (List.getElem?_eq_some_iff.1 hc).1
    rw [← covariance_self (ha v hv).aemeasurable, covariance_const_add_left (hi v hv), covariance_const_add_right (hi v hv),
      covariance_const_mul_left, covariance_const_mul_right, covariance_self (hl v hv).aemeasurable, hZ.variance v hv]
    simp only [stdOf, hc]
    ring
  · intro v hv w hw hne
    rw [covariance_const_add_left (hi v hv), covariance_const_add_right (hi w hw), covariance_const_mul_left,
      covariance_const_mul_right, hZ.uncorrelated v hv w hw hne]
    ring

end

/-! ### No rounding errors -/

namespace Formula

/-- A formula without functions. -/
def NoFns : Formula → Prop
  | var _ | const _ => True
  | pos a | neg a | abs a => a.NoFns
  | add a b | sub a b | mul a b | div a b => a.NoFns ∧ b.NoFns
  | fn1 _ _ | fn2 _ _ _ => False

theorem NoFns.measurableFns {φ : Formula} (h : φ.NoFns) : φ.MeasurableFns := by
  induction φ with
  | var v => trivial
  | const c => trivial
  | pos a ih => exact ih h
  | neg a ih => exact ih h
  | abs a ih => exact ih h
  | add a b iha ihb => exact ⟨iha h.1, ihb h.2⟩
  | sub a b iha ihb => exact ⟨iha h.1, ihb h.2⟩
  | mul a b iha ihb => exact ⟨iha h.1, ihb h.2⟩
  | div a b iha ihb => exact ⟨iha h.1, ihb h.2⟩
  | fn1 s a ih => exact h.elim
  | fn2 s a b iha ihb => exact h.elim

theorem NoFns.err {φ : Formula} (h : φ.NoFns) (n : VarId → ℝ) : φ.err 0 0 n = 0 := by
  induction φ with
  | var v => rfl
  | const c => rfl
  | pos a ih => exact ih h
  | neg a ih => exact ih h
  | abs a ih => exact ih h
  | add a b iha ihb => simp [Formula.err, roundingError, iha h.1, ihb h.2]
  | sub a b iha ihb => simp [Formula.err, roundingError, iha h.1, ihb h.2]
  | mul a b iha ihb => simp [Formula.err, roundingError, productError, iha h.1, ihb h.2]
  | div a b iha ihb => simp [Formula.err, roundingError, quotientError, iha h.1, ihb h.2]
  | fn1 s a ih => exact h.elim
  | fn2 s a b iha ihb => exact h.elim

theorem NoFns.magErr {φ : Formula} (h : φ.NoFns) (n : VarId → ℝ) (v : VarId) : (φ.sens 0 0 n v).magErr = 0 := by
  induction φ with
  | var w => simp only [sens]; split <;> rfl
  | const c => rfl
  | pos a ih => exact ih h
  | neg a ih => exact ih h
  | abs a ih => exact ih h
  | add a b iha ihb => simp [sens, Sens.add, iha h.1, ihb h.2]
  | sub a b iha ihb => simp [sens, Sens.add, iha h.1, ihb h.2]
  | mul a b iha ihb => simp [sens, Sens.add, Sens.smul, iha h.1, ihb h.2, NoFns.err h.1, NoFns.err h.2]
  | div a b iha ihb =>
    simp [sens, Sens.add, Sens.smul, iha h.1, ihb h.2, NoFns.err h.1, NoFns.err h.2, inverseError, quotientDerivError,
      roundingError, quotientError, squareError, productError]
  | fn1 s a ih => exact h.elim
  | fn2 s a b iha ihb => exact h.elim

theorem NoFns.derivBound {φ : Formula} (h : φ.NoFns) (n : VarId → ℝ) (v : VarId) : φ.derivBound 0 0 n v = 0 := by
  simp [Formula.derivBound, sumBound, h.magErr]

end Formula

/-- The formulas of programs without functions have no functions. -/
theorem formulas_noFns {F : Type} [PyFloat F] [Rounded F] (cs : List (Cmd F)) (k : ℕ) (φ : Formula)
    (h : (formulas .none cs).env[k]? = some (some φ)) : φ.NoFns := by
  have key : ∀ (cs : List (Cmd F)) (s : FState F), (∀ ψ, some ψ ∈ s.env → ψ.NoFns) →
      ∀ ψ, some ψ ∈ (cs.foldl (FState.step .none) s).env → ψ.NoFns := by
    intro cs
    induction cs with
    | nil => exact fun s hs => hs
    | cons c cs ih =>
      intro s hs
      refine ih _ fun ψ hψ => ?_
      have harg : ∀ (x : Arg F) a, x.formula s.env = some a → a.NoFns := by
        intro x a hx
        cases x with
        | ref k => exact hs a (List.mem_of_getElem? (Option.join_eq_some_iff.1 hx))
        | const c =>
          cases c <;> simp only [Arg.formula, Option.some.injEq, reduceCtorEq] at hx
          subst hx
          trivial
      have happ : ∀ o : Option Formula, (∀ a, o = some a → a.NoFns) → some ψ ∈ s.env ++ [o] → ψ.NoFns := by
        intro o ho hm
        rcases List.mem_append.1 hm with hm | hm
        · exact hs _ hm
        · exact ho _ (List.mem_singleton.1 hm).symm
      unfold FState.step at hψ
      split at hψ
      · split at hψ
        · exact happ _ (by simp) hψ
        · exact happ _ (by rintro a ⟨⟩; trivial) hψ
      · rename_i op x
        refine happ _ (fun a ha => ?_) hψ
        obtain ⟨b, hb, hop⟩ := Option.bind_eq_some_iff.1 ha
        have := harg _ _ hb
        cases op <;> simp only [UnOp.formula, Option.some.injEq, reduceCtorEq] at hop <;> subst hop <;> exact this
      · rename_i op x y
        refine happ _ (fun a ha => ?_) hψ
        obtain ⟨b, hb, ha⟩ := Option.bind_eq_some_iff.1 ha
        obtain ⟨c, hc, hop⟩ := Option.bind_eq_some_iff.1 ha
        have h1 := harg _ _ hb
        have h2 := harg _ _ hc
        cases op <;> simp only [FnSpecs.binop, BinOp.formula, Option.some.injEq, reduceCtorEq] at hop
        all_goals first | (subst hop; exact ⟨h1, h2⟩) | skip
        cases c <;> simp [FnSpecs.powFormula, FnSpecs.none] at hop
      · exact happ _ (by simp [FnSpecs.none]) hψ
      · exact happ _ (by simp [FnSpecs.none]) hψ
      · split at hψ
        · split at hψ
          · split at hψ
            · exact hs _ hψ
            · exact hs _ hψ
          · exact hs _ hψ
        · exact hs _ hψ
      · exact hs _ hψ
  exact key cs ⟨[], []⟩ (by simp) φ (List.mem_of_getElem? h)

end Unc
