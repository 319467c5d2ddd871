import Mathlib.Algebra.BigOperators.Group.Finset.Basic
import Mathlib.Algebra.Order.BigOperators.Ring.Finset
import Verif.Spec.Real
import Verif.Lemmas.Sees
import Verif.Py.NRMath

/-
The specification in exact arithmetic, as sums of real numbers.
-/

namespace Unc

set_option linter.unusedSectionVars false
set_option autoImplicit false

open NR Finset

@[simp] theorem coef_none : coef none = 0 := rfl
@[simp] theorem coef_fin (x : ℝ) : coef (some (fin x)) = x := rfl

theorem sumVars_fin (f : VarId → ℝ) (n : Nat) :
    sumVars (fun v => fin (f v)) n = fin (∑ v ∈ range n, f v) := by
  induction n with
  | zero => simp [sumVars]
  | succ n ih => simp [sumVars, ih, sum_range_succ]

/-- A sum with a NaN is NaN. -/
theorem sumVars_nan {f : VarId → NR} {n : Nat} {v : VarId} (hv : v < n) (h : f v = nan) :
    sumVars f n = nan := by
  induction n with
  | zero => omega
  | succ n ih =>
    simp only [sumVars]
    by_cases e : v = n
    · subst e; simp [h]
    · rw [ih (by omega)]; simp

theorem specComponent_fin (d σ : ℝ) : specComponent (fin d) (fin σ) = fin |d * σ| := by
  unfold specComponent
  by_cases h : σ = 0
  · subst h; simp [PyFloat.eqb]
  · simp [PyFloat.eqb, h, PyFloat.abs, lift1]

/-- Data of the variables of a quantity. -/
def StdsAre {F : Type} (vars : List (SVar F)) (D : VarId → Option F) (σ : VarId → F) : Prop :=
  ∀ v, D v ≠ none → ∃ cell, vars[v]? = some cell ∧ cell.std = σ v

theorem specVarianceTerm_fin {vars : List (SVar NR)} {D : Lin NR} {σ : VarId → ℝ}
    (hnan : ∀ v, D v ≠ some nan) (hσ : StdsAre vars D (fun v => fin (σ v))) (v : VarId) :
    specVarianceTerm vars D v = fin ((coef (D v) * σ v) ^ 2) := by
  unfold specVarianceTerm
  cases hd : D v with
  | none => simp
  | some d =>
    obtain ⟨cell, h1, h2⟩ := hσ v (by simp [hd])
    cases d with
    | nan => exact absurd hd (hnan v)
    | fin d =>
      simp only [h1, h2, specComponent_fin, fin_mul, coef_fin]
      rw [← pow_two, sq_abs]

theorem specVariance_fin {vars : List (SVar NR)} {D : Lin NR} {σ : VarId → ℝ}
    (hnan : ∀ v, D v ≠ some nan) (hσ : StdsAre vars D (fun v => fin (σ v))) :
    specVariance vars D = fin (∑ v ∈ range vars.length, (coef (D v) * σ v) ^ 2) := by
  unfold specVariance
  rw [← sumVars_fin]
  exact sumVars_congr (fun v _ => specVarianceTerm_fin hnan hσ v)

theorem specStd_fin {vars : List (SVar NR)} {D : Lin NR} {σ : VarId → ℝ}
    (hnan : ∀ v, D v ≠ some nan) (hσ : StdsAre vars D (fun v => fin (σ v))) :
    specStd vars D = .ok (fin (Real.sqrt (∑ v ∈ range vars.length, (coef (D v) * σ v) ^ 2))) := by
  unfold specStd
  rw [specVariance_fin hnan hσ]
  have : ¬ (∑ v ∈ range vars.length, (coef (D v) * σ v) ^ 2) < 0 :=
    not_lt.mpr (sum_nonneg (fun v _ => sq_nonneg _))
  simp [PyFloat.sqrt, this]

/-- Square root in exact arithmetic. -/
noncomputable def nrSqrt : NR → NR
  | fin x => fin (Real.sqrt x)
  | nan => nan

@[simp] theorem nrSqrt_fin (x : ℝ) : nrSqrt (fin x) = fin (Real.sqrt x) := rfl
@[simp] theorem nrSqrt_nan : nrSqrt nan = nan := rfl

/-- Not a negative number. -/
def NonNeg : NR → Prop
  | fin x => 0 ≤ x
  | nan => True

theorem NonNeg.add {a b : NR} (ha : NonNeg a) (hb : NonNeg b) : NonNeg (a + b) := by
  cases a <;> cases b <;> simp_all [NonNeg]
  exact add_nonneg ha hb

theorem NonNeg.mul_self (a : NR) : NonNeg (a * a) := by
  cases a <;> simp [NonNeg]
  exact mul_self_nonneg _

theorem nonNeg_sumVars {f : VarId → NR} {n : Nat} (h : ∀ v, NonNeg (f v)) : NonNeg (sumVars f n) := by
  induction n with
  | zero => simp [sumVars, NonNeg]
  | succ n ih => exact ih.add (h n)

theorem nonNeg_term (vars : List (SVar NR)) (D : Lin NR) (v : VarId) :
    NonNeg (specVarianceTerm vars D v) := by
  unfold specVarianceTerm
  split
  · exact NonNeg.mul_self _
  · simp [NonNeg]

theorem nonNeg_variance (vars : List (SVar NR)) (D : Lin NR) : NonNeg (specVariance vars D) :=
  nonNeg_sumVars (nonNeg_term vars D)

theorem sqrt_nonNeg {a : NR} (h : NonNeg a) : PyFloat.sqrt a = .ok (nrSqrt a) := by
  cases a with
  | nan => rfl
  | fin x =>
    have : ¬ x < 0 := not_lt.mpr h
    simp [PyFloat.sqrt, this]

/-- In exact arithmetic, the standard deviation always has a value. -/
theorem specStd_eq (vars : List (SVar NR)) (D : Lin NR) :
    specStd vars D = .ok (nrSqrt (specVariance vars D)) := sqrt_nonNeg (nonNeg_variance vars D)

theorem sumVars_single {f : VarId → NR} {n : Nat} {v : VarId} (hv : v < n)
    (h : ∀ u, u ≠ v → f u = fin 0) : sumVars f n = f v := by
  induction n with
  | zero => omega
  | succ n ih =>
    simp only [sumVars]
    by_cases e : v = n
    · subst e
      have : sumVars f v = fin 0 := by
        rw [sumVars_congr (φ := fun _ => fin 0) (fun u hu => h u (by omega)), sumVars_fin]
        simp
      rw [this]
      cases f v <;> simp
    · rw [ih (by omega), h n (fun e' => e e'.symm)]
      cases f v <;> simp

/-- A variable: `sqrt(σ²)` is `σ`. -/
theorem specStd_single {vars : List (SVar NR)} {v : VarId} {c : SVar NR} (hc : vars[v]? = some c)
    (hb : specBadStd c.std = false) : specStd vars (Lin.single v) = .ok c.std := by
  have hlt : v < vars.length := (List.getElem?_eq_some_iff.mp hc).1
  rw [specStd_eq]
  unfold specVariance
  rw [sumVars_single hlt]
  · simp only [specVarianceTerm, Lin.single, hc, if_true]
    unfold specComponent
    cases hs : c.std with
    | nan => simp [PyFloat.eqb, PyFloat.abs, lift1]
    | fin σ =>
      rw [hs] at hb
      have hpos : 0 ≤ σ := by simpa [specBadStd, PyFloat.ltb, PyFloat.isInf] using hb
      by_cases h0 : σ = 0
      · subst h0; simp [PyFloat.eqb]
      · simp [PyFloat.eqb, h0, PyFloat.abs, lift1, hpos]
  · intro u hu
    simp [specVarianceTerm, Lin.single, hu]

theorem specStdDev_eq_specStd {s : SState NR} (hwf : s.WF) {q : SQ NR} (hq : some (.unc q) ∈ s.env) :
    specStdDev s.vars q = specStd s.vars q.grad := by
  unfold specStdDev
  cases hv : q.var with
  | none => rfl
  | some v =>
    obtain ⟨hg, c, hc, -⟩ := hwf.var q hq v hv
    rw [hg, specStd_single hc (hwf.std v c hc)]
    simp [hc]

/-- `x.std_dev` and `x.s` are the same in exact arithmetic. -/
theorem Reaches.stdDev {cs : List (Cmd NR)} {s : SState NR} (h : Reaches cs s) {x : Arg NR}
    {q : SQ NR} (hx : x.sevalUnc s.env = some q) :
    sees cs (.stdDev x) = .val (.flt (nrSqrt (specVariance s.vars q.grad))) ∧
    sees cs (.s x) = .val (.flt (nrSqrt (specVariance s.vars q.grad))) := by
  constructor
  · rw [(h.read (c := .stdDev x) rfl).1]
    have hx' := hx
    simp only [Arg.sevalUnc] at hx
    split at hx
    · rename_i q' hxx
      cases hx
      simp only [SState.step, hxx]
      rw [specStdDev_eq_specStd h.wf (sevalUnc_mem hx'), specStd_eq]
      rfl
    · cases hx
  · rw [(h.read (c := .s x) rfl).1]
    simp only [SState.step, SState.read, hx]
    rw [specStd_eq]
    rfl

/-- Sums over any finite set that contains the variables of a quantity are the same. -/
theorem sum_eq_of_support {D : VarId → Option NR} {f : VarId → ℝ} {V W : Finset ℕ}
    (hV : ∀ v, D v ≠ none → v ∈ V) (hW : ∀ v, D v ≠ none → v ∈ W) (hf : ∀ v, D v = none → f v = 0) :
    ∑ v ∈ V, f v = ∑ v ∈ W, f v := by
  have key : ∀ U : Finset ℕ, (∀ v, D v ≠ none → v ∈ U) →
      ∑ v ∈ U, f v = ∑ v ∈ V ∪ W with (D v).isSome, f v := by
    intro U hU
    rw [← Finset.sum_filter_add_sum_filter_not U (fun v => (D v).isSome = true)]
    have h0 : ∑ v ∈ U with ¬ (D v).isSome = true, f v = 0 := by
      apply Finset.sum_eq_zero
      intro v hv
      simp only [Finset.mem_filter, Bool.not_eq_true, Option.isSome_eq_false_iff,
        Option.isNone_iff_eq_none] at hv
      exact hf v hv.2
    rw [h0, add_zero]
    apply Finset.sum_congr _ (fun _ _ => rfl)
    ext v
    simp only [Finset.mem_filter, Finset.mem_union, Option.isSome_iff_ne_none]
    constructor
    · rintro ⟨-, h⟩; exact ⟨Or.inl (hV v h), h⟩
    · rintro ⟨-, h⟩; exact ⟨hU v h, h⟩
  rw [key V hV, key W hW]

end Unc
