import Verif.Lemmas.NRSum
import Verif.Lemmas.OpSpec

/-
Comparisons in exact arithmetic.
-/

namespace Unc

set_option autoImplicit false

open NR Finset

/-- Gradient of `x - y`. -/
noncomputable def diffGrad (g g' : Lin NR) : Lin NR := Lin.comb [(1, g), (-1, g')]

theorem diffGrad_apply (g g' : Lin NR) (v : VarId) :
    diffGrad g g' v = optAdd (g v) ((g' v).map (fun b => -b)) := by
  simp only [diffGrad, Lin.comb, Lin.add, Lin.smul, Lin.zero]
  cases g v with
  | none =>
    cases g' v with
    | none => rfl
    | some b => cases b <;> simp [optAdd, neg_fin]
  | some a =>
    cases g' v with
    | none => cases a <;> simp [optAdd]
    | some b => cases a <;> cases b <;> simp [optAdd]

theorem specComponent_neg (d σ : NR) : specComponent (-d) σ = specComponent d σ := by
  unfold specComponent
  split
  · rfl
  · cases d with
    | nan => rfl
    | fin d => cases σ <;> simp [PyFloat.abs, lift1]

theorem specVariance_diff_comm (vars : List (SVar NR)) (g g' : Lin NR) :
    specVariance vars (diffGrad g' g) = specVariance vars (diffGrad g g') := by
  unfold specVariance
  apply sumVars_congr
  intro v _
  have h : diffGrad g' g v = (diffGrad g g' v).map (fun b => -b) := by
    rw [diffGrad_apply, diffGrad_apply]
    cases g v with
    | none =>
      cases g' v with
      | none => rfl
      | some b => cases b <;> simp [optAdd]
    | some a =>
      cases g' v with
      | none => cases a <;> simp [optAdd]
      | some b =>
        cases a <;> cases b <;> simp [optAdd]
  unfold specVarianceTerm
  rw [h]
  cases diffGrad g g' v with
  | none => rfl
  | some d => cases vars[v]? <;> simp [specComponent_neg]

theorem specEq_eq (vars : List (SVar NR)) (x y : SQ NR) :
    specEq vars x y = .ok (!PyFloat.truthy (x.nom - y.nom) &&
      !PyFloat.truthy (nrSqrt (specVariance vars (diffGrad x.grad y.grad)))) := by
  unfold specEq
  rw [specStd_eq]
  cases PyFloat.truthy (x.nom - y.nom) <;> rfl

theorem truthy_sub_comm (a b : NR) : PyFloat.truthy (a - b) = PyFloat.truthy (b - a) := by
  cases a <;> cases b <;> simp [PyFloat.truthy, PyFloat.eqb, sub_eq_zero]
  exact eq_comm

theorem specEq_comm (vars : List (SVar NR)) (x y : SQ NR) : specEq vars x y = specEq vars y x := by
  rw [specEq_eq, specEq_eq, truthy_sub_comm, specVariance_diff_comm]

theorem specCmp_swap (vars : List (SVar NR)) (op : CmpOp) (x y : SQ NR) :
    specCmp vars op.swap y x = specCmp vars op x y := by
  cases op <;> simp only [CmpOp.swap, specCmp] <;> rw [specEq_comm]

theorem specCmpRun_unc (vars : List (SVar NR)) (op : CmpOp) (x y : SQ NR) :
    specCmpRun vars op x (.unc y) = specCmp vars op x y := by
  simp only [specCmpRun, specCmpVal]
  cases specCmp vars op x y <;> simp [Except.map]

theorem specCmpRun_flt (vars : List (SVar NR)) (op : CmpOp) (x : SQ NR) (y : NR) :
    specCmpRun vars op x (.plain (.flt y)) = specCmp vars op x (specExact y) := by
  simp only [specCmpRun, specCmpVal]
  cases specCmp vars op x (specExact y) <;> simp [Except.map]

/-- Numbers as quantities. -/
noncomputable def SVal.asQ : SVal NR → Option (SQ NR)
  | .unc q => some q
  | .plain (.flt x) => some (specExact x)
  | _ => none

/-- Comparisons do not depend on which operand does the comparison. -/
theorem specCompare_eq (vars : List (SVar NR)) (op : CmpOp) {a b : SVal NR} {x y : SQ NR}
    (ha : a.asQ = some x) (hb : b.asQ = some y) (hu : (a.isUnc || b.isUnc) = true) :
    specCompare vars op a b = specCmp vars op x y := by
  cases a with
  | unc p =>
    simp only [SVal.asQ, Option.some.injEq] at ha; subst ha
    cases b with
    | unc q =>
      simp only [SVal.asQ, Option.some.injEq] at hb; subst hb
      simp only [specCompare]
      split
      · rw [specCmpRun_unc, specCmp_swap]
      · rw [specCmpRun_unc]
    | plain v =>
      cases v <;> simp only [SVal.asQ, Option.some.injEq, reduceCtorEq] at hb
      subst hb
      simp only [specCompare, specCmpRun_flt]
  | plain v =>
    cases v <;> simp only [SVal.asQ, Option.some.injEq, reduceCtorEq] at ha
    subst ha
    cases b with
    | unc q =>
      simp only [SVal.asQ, Option.some.injEq] at hb; subst hb
      simp only [specCompare, specCmpRun_flt, specCmp_swap]
    | plain v => simp [SVal.isUnc] at hu

theorem coef_diffGrad {g g' : Lin NR} (h : ∀ v, g v ≠ some nan) (h' : ∀ v, g' v ≠ some nan)
    (v : VarId) : coef (diffGrad g g' v) = coef (g v) - coef (g' v) ∧ diffGrad g g' v ≠ some nan := by
  rw [diffGrad_apply]
  have a1 := h v
  have a2 := h' v
  cases hg : g v with
  | none =>
    cases hg' : g' v with
    | none => simp [optAdd]
    | some b =>
      cases b with
      | nan => exact absurd hg' a2
      | fin b => simp [optAdd]
  | some a =>
    cases a with
    | nan => exact absurd hg a1
    | fin a =>
      cases hg' : g' v with
      | none => simp [optAdd]
      | some b =>
        cases b with
        | nan => exact absurd hg' a2
        | fin b => simp [optAdd]; ring

/-- `x == y` for finite values. -/
theorem specEq_fin {vars : List (SVar NR)} {x y : SQ NR} {a b : ℝ} {σ : VarId → ℝ}
    (ha : x.nom = fin a) (hb : y.nom = fin b)
    (h : ∀ v, x.grad v ≠ some nan) (h' : ∀ v, y.grad v ≠ some nan)
    (hσ : StdsAre vars x.grad (fun v => fin (σ v))) (hσ' : StdsAre vars y.grad (fun v => fin (σ v))) :
    ∃ r, specEq vars x y = .ok r ∧
      (r = true ↔ a = b ∧ ∀ v, σ v ≠ 0 → coef (x.grad v) = coef (y.grad v)) := by
  refine ⟨_, specEq_eq vars x y, ?_⟩
  have hs : StdsAre vars (diffGrad x.grad y.grad) (fun v => fin (σ v)) := by
    intro v hv
    rw [diffGrad_apply] at hv
    by_cases hx : x.grad v = none
    · by_cases hy : y.grad v = none
      · simp [hx, hy, optAdd] at hv
      · exact hσ' v hy
    · exact hσ v hx
  rw [specVariance_fin (fun v => (coef_diffGrad h h' v).2) hs, ha, hb]
  have hnn : ∀ v ∈ range vars.length, 0 ≤ (coef (diffGrad x.grad y.grad v) * σ v) ^ 2 :=
    fun v _ => sq_nonneg _
  simp only [fin_sub, PyFloat.truthy, PyFloat.eqb, nrSqrt_fin, zero_eq, Bool.not_not,
    Bool.and_eq_true, decide_eq_true_eq, sub_eq_zero, Real.sqrt_eq_zero (sum_nonneg hnn),
    sum_eq_zero_iff_of_nonneg hnn]
  constructor
  · rintro ⟨e, hz⟩
    refine ⟨e, fun v hv => ?_⟩
    by_cases hlt : v < vars.length
    · have := hz v (mem_range.mpr hlt)
      rw [(coef_diffGrad h h' v).1] at this
      have := pow_eq_zero_iff (two_ne_zero) |>.mp this
      rcases mul_eq_zero.mp this with h0 | h0
      · linarith
      · exact absurd h0 hv
    · have hx : x.grad v = none := by
        by_contra hne
        obtain ⟨cell, hc, -⟩ := hσ v hne
        exact hlt (List.getElem?_eq_some_iff.mp hc).1
      have hy : y.grad v = none := by
        by_contra hne
        obtain ⟨cell, hc, -⟩ := hσ' v hne
        exact hlt (List.getElem?_eq_some_iff.mp hc).1
      rw [hx, hy]
  · rintro ⟨e, hz⟩
    refine ⟨e, fun v _ => ?_⟩
    rw [(coef_diffGrad h h' v).1]
    by_cases hv : σ v = 0
    · simp [hv]
    · rw [hz v hv]; simp

/-- A comparison, as seen by a program. -/
theorem Reaches.compare {cs : List (Cmd NR)} {s : SState NR} (h : Reaches cs s) {x y : Arg NR}
    {a b : SVal NR} {p q : SQ NR} (hx : x.seval s.env = some a) (hy : y.seval s.env = some b)
    (ha : a.asQ = some p) (hb : b.asQ = some q) (hu : (a.isUnc || b.isUnc) = true) (op : CmpOp) :
    sees cs (.compare op x y) = PyRes.out .bool (specCmp s.vars op p q) := by
  rw [(h.read (c := .compare op x y) rfl).1]
  simp only [SState.step, hx, hy, hu, if_true]
  rw [specCompare_eq s.vars op ha hb hu]

end Unc
