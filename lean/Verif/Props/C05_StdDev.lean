import Verif.Props.Examples

/-
C05, C06, C07: standard deviations and error components.
-/

namespace Unc

set_option autoImplicit false

open NR Finset

/-- The derivatives of a number with uncertainty can always be read (and so can its nominal value and
the standard deviations of its variables), after any history: the other theorems apply to all
numbers with uncertainties. They involve finitely many variables. -/
theorem C05_quantities {F : Type} [PyMath F] [ExactLin F] (cs : List (Cmd F)) (x : Arg F)
    (h : sees cs (.derivatives x) ≠ .invalid) :
    (∃ n D σ, Quantity cs x n D σ) ∧
    ∀ n D σ, Quantity cs x n D σ → ∃ V : Finset ℕ, ∀ v, D v ≠ none → v ∈ V := by
  obtain ⟨s, hs⟩ := Reaches.exists cs
  constructor
  · cases hx : x.sevalUnc s.env with
    | none =>
      exfalso; apply h
      rw [(hs.read (c := .derivatives x) rfl).1]
      simp [SState.step, SState.read, hx, SState.invalid]
    | some q => exact ⟨_, _, _, hs.quantity_exists hx⟩
  · intro n D σ hq
    obtain ⟨q, h1, -, h3, -⟩ := hs.quantity hq
    refine ⟨Finset.range s.vars.length, fun v hv => ?_⟩
    obtain ⟨d, hd⟩ := Option.ne_none_iff_exists'.mp hv
    rw [← h3] at hd
    exact mem_range.mpr (hs.wf.keys q (sevalUnc_mem h1) v d hd)

/-- **C05**: after any history (including any number of changes of the standard deviations of
variables), for a quantity without undefined derivative, `std_dev` is the square root of the sum,
over its variables, of the squares of derivative times current standard deviation of the variable.
`V` is any finite set that contains the variables of the quantity. `x.s` is the same. -/
theorem C05_std_dev_formula {cs : List (Cmd NR)} {x : Arg NR} {n : NR} {D : VarId → Option NR}
    {σ : VarId → ℝ} (hq : Quantity cs x n D (fun v => fin (σ v))) (hnan : ∀ v, D v ≠ some nan)
    {V : Finset ℕ} (hV : ∀ v, D v ≠ none → v ∈ V) :
    sees cs (.stdDev x) = .val (.flt (fin (Real.sqrt (∑ v ∈ V, (coef (D v) * σ v) ^ 2)))) ∧
    sees cs (.s x) = .val (.flt (fin (Real.sqrt (∑ v ∈ V, (coef (D v) * σ v) ^ 2)))) := by
  obtain ⟨s, hs⟩ := Reaches.exists cs
  obtain ⟨q, h1, -, h3, h4⟩ := hs.quantity hq
  have hsd := hs.stdDev h1
  rw [h3, specVariance_fin hnan h4, nrSqrt_fin] at hsd
  have e : ∑ v ∈ range s.vars.length, (coef (D v) * σ v) ^ 2 = ∑ v ∈ V, (coef (D v) * σ v) ^ 2 := by
    apply sum_eq_of_support (D := D) _ hV
    · intro v hv; simp [hv]
    · intro v hv
      obtain ⟨cell, hc, -⟩ := h4 v hv
      exact mem_range.mpr (List.getElem?_eq_some_iff.mp hc).1
  rw [e] at hsd
  exact hsd

/-- `p = x*y` with x = 3±2, y = 5±1: `std_dev² = (5*2)² + (3*1)²`. -/
example : sees exCs (.stdDev (.ref 2)) = .val (.flt (fin (Real.sqrt 109))) := by
  have h := C05_std_dev_formula ex_p (by intro v; unfold exP; split <;> [simp; split <;> simp])
    (V := {0, 1}) (by intro v; unfold exP; split <;> [simp_all; split <;> simp_all])
  rw [h.1]
  simp [exP, exStd]
  norm_num

/-- **C06**: `error_components()` has one entry for each variable of `derivatives`; each one is the
absolute value of derivative times standard deviation of the variable (0 for a variable with standard
deviation 0), and so it is never negative. -/
theorem C06_error_components {cs : List (Cmd NR)} {x : Arg NR} {n : NR} {D : VarId → Option NR}
    {σ : VarId → NR} (hq : Quantity cs x n D σ) :
    ∃ E, sees cs (.errorComponents x) = .dict E ∧ (∀ v, E v = none ↔ D v = none) ∧
      ∀ v d, D v = some d →
        (σ v = fin 0 → E v = some (fin 0)) ∧
        (σ v ≠ fin 0 → E v = some (PyFloat.abs (d * σ v))) ∧
        (∀ e, E v = some (fin e) → 0 ≤ e) := by
  obtain ⟨s, hs⟩ := Reaches.exists cs
  obtain ⟨q, h1, -, h3, h4⟩ := hs.quantity hq
  refine ⟨specErrorComponents s.vars D, ?_, ?_, ?_⟩
  · rw [(hs.read (c := .errorComponents x) rfl).1]
    simp only [SState.step, SState.read, h1, h3]
  · intro v
    unfold specErrorComponents
    cases hd : D v with
    | none => simp
    | some d =>
      obtain ⟨cell, hc, -⟩ := h4 v (by simp [hd])
      simp [hc]
  · intro v d hd
    obtain ⟨cell, hc, hσ⟩ := h4 v (by simp [hd])
    have he : specErrorComponents s.vars D v = some (specComponent d (σ v)) := by
      simp [specErrorComponents, hd, hc, hσ]
    rw [he]
    refine ⟨?_, ?_, ?_⟩
    · intro h0
      rw [h0]; simp [specComponent, PyFloat.eqb]
    · intro h0
      unfold specComponent
      have : PyFloat.eqb (σ v) 0 = false := by
        cases hv : σ v with
        | nan => rfl
        | fin r => simp [PyFloat.eqb]; intro h; exact h0 (by rw [hv, h])
      rw [this]; rfl
    · intro e h
      simp only [Option.some.injEq] at h
      unfold specComponent at h
      split at h
      · simp at h; exact h.le
      · cases hm : d * σ v with
        | nan => rw [hm] at h; cases h
        | fin r =>
          rw [hm] at h
          simp only [PyFloat.abs, lift1, NR.fin.injEq] at h
          rw [← h]; exact abs_nonneg r

/-- **C06**, sum of squares: when all the error components are numbers (no NaN), the sum of their
squares is the square of `std_dev`. -/
theorem C06_sum_of_squares {cs : List (Cmd NR)} {x : Arg NR} {n : NR} {D : VarId → Option NR}
    {σ : VarId → NR} (hq : Quantity cs x n D σ) {E : VarId → Option NR}
    (hE : sees cs (.errorComponents x) = .dict E) (hnan : ∀ v, E v ≠ some nan)
    {V : Finset ℕ} (hV : ∀ v, D v ≠ none → v ∈ V) :
    ∃ s : ℝ, sees cs (.stdDev x) = .val (.flt (fin s)) ∧ 0 ≤ s ∧ s ^ 2 = ∑ v ∈ V, coef (E v) ^ 2 := by
  obtain ⟨s, hs⟩ := Reaches.exists cs
  obtain ⟨q, h1, -, h3, h4⟩ := hs.quantity hq
  rw [(hs.read (c := .errorComponents x) rfl).1] at hE
  simp only [SState.step, SState.read, h1, h3, Out.dict.injEq] at hE
  subst hE
  have hterm : ∀ v, specVarianceTerm s.vars D v = fin (coef (specErrorComponents s.vars D v) ^ 2) := by
    intro v
    have hn := hnan v
    unfold specVarianceTerm
    unfold specErrorComponents at hn ⊢
    cases hd : D v with
    | none => simp
    | some d =>
      obtain ⟨cell, hc, -⟩ := h4 v (by simp [hd])
      simp only [hd, hc] at hn ⊢
      cases he : specComponent d cell.std with
      | nan => rw [he] at hn; exact absurd rfl hn
      | fin e => simp [pow_two]
  have hvar : specVariance s.vars D =
      fin (∑ v ∈ range s.vars.length, coef (specErrorComponents s.vars D v) ^ 2) := by
    unfold specVariance
    rw [← sumVars_fin]
    exact sumVars_congr (fun v _ => hterm v)
  have hsd := (hs.stdDev h1).1
  rw [h3, hvar, nrSqrt_fin] at hsd
  have hnn : 0 ≤ ∑ v ∈ range s.vars.length, coef (specErrorComponents s.vars D v) ^ 2 :=
    sum_nonneg (fun v _ => sq_nonneg _)
  refine ⟨_, hsd, Real.sqrt_nonneg _, ?_⟩
  rw [Real.sq_sqrt hnn]
  apply sum_eq_of_support (D := D) _ hV
  · intro v hv; simp [specErrorComponents, hv]
  · intro v hv
    obtain ⟨cell, hc, -⟩ := h4 v hv
    exact mem_range.mpr (List.getElem?_eq_some_iff.mp hc).1

example : ∃ E s, sees exCs (.errorComponents (.ref 2)) = .dict E ∧ E 0 = some (fin 10) ∧
    E 1 = some (fin 3) ∧ E 2 = none ∧ sees exCs (.stdDev (.ref 2)) = .val (.flt (fin s)) ∧
    s ^ 2 = 10 ^ 2 + 3 ^ 2 := by
  obtain ⟨E, h1, h2, h3⟩ := C06_error_components ex_p
  have e0 : E 0 = some (fin 10) := by
    rw [(h3 0 (fin 5) rfl).2.1 (by simp [exStd])]
    simp [exStd, PyFloat.abs, lift1]; norm_num
  have e1 : E 1 = some (fin 3) := by
    rw [(h3 1 (fin 3) rfl).2.1 (by simp [exStd])]
    simp [exStd, PyFloat.abs, lift1]
  have eo : ∀ v, v ≠ 0 → v ≠ 1 → E v = none := by
    intro v a b; rw [h2]; simp [exP, a, b]
  obtain ⟨s, a, -, b⟩ := C06_sum_of_squares ex_p h1 (V := {0, 1})
    (by
      intro v
      by_cases a : v = 0
      · simp [a, e0]
      · by_cases b : v = 1
        · simp [b, e1]
        · simp [eo v a b])
    (by intro v; unfold exP; split <;> [simp_all; split <;> simp_all])
  refine ⟨E, s, h1, e0, e1, eo 2 (by simp) (by simp), a, ?_⟩
  rw [b]; simp [e0, e1]

/-- **C07**: if all the variables of a quantity are exact (standard deviation 0), the standard
deviation of the quantity is 0, even with NaN derivatives. -/
theorem C07_exact_variables {cs : List (Cmd NR)} {x : Arg NR} {n : NR} {D : VarId → Option NR}
    (hq : Quantity cs x n D (fun _ => fin 0)) :
    sees cs (.stdDev x) = .val (.flt (fin 0)) := by
  obtain ⟨s, hs⟩ := Reaches.exists cs
  obtain ⟨q, h1, -, h3, h4⟩ := hs.quantity hq
  have hsd := (hs.stdDev h1).1
  have hv : specVariance s.vars D = fin 0 := by
    unfold specVariance
    have : ∀ v, specVarianceTerm s.vars D v = fin 0 := by
      intro v
      unfold specVarianceTerm
      cases hd : D v with
      | none => simp
      | some d =>
        obtain ⟨cell, hc, hσ⟩ := h4 v (by simp [hd])
        simp [hc, hσ, specComponent, PyFloat.eqb]
    rw [sumVars_congr (φ := fun _ => fin 0) (fun v _ => this v), sumVars_fin]
    simp
  rw [h3, hv] at hsd
  simpa using hsd

/-- **C07**: a NaN derivative with respect to a variable which is not exact makes the standard
deviation NaN. -/
theorem C07_undefined_derivative {cs : List (Cmd NR)} {x : Arg NR} {n : NR} {D : VarId → Option NR}
    {σ : VarId → NR} (hq : Quantity cs x n D σ) {v : VarId} (hv : D v = some nan)
    (hσ : σ v ≠ fin 0) : sees cs (.stdDev x) = .val (.flt nan) := by
  obtain ⟨s, hs⟩ := Reaches.exists cs
  obtain ⟨q, h1, -, h3, h4⟩ := hs.quantity hq
  have hsd := (hs.stdDev h1).1
  obtain ⟨cell, hc, hcell⟩ := h4 v (by simp [hv])
  have hlt := (List.getElem?_eq_some_iff.mp hc).1
  have hvar : specVariance s.vars D = nan := by
    unfold specVariance
    apply sumVars_nan hlt
    simp only [specVarianceTerm, hv, hc, hcell, specComponent]
    have : PyFloat.eqb (σ v) 0 = false := by
      cases hh : σ v with
      | nan => rfl
      | fin r => simp [PyFloat.eqb]; intro h; exact hσ (by rw [hh, h])
    rw [this]
    simp [PyFloat.abs, lift1]
  rw [h3, hvar] at hsd
  exact hsd

/-- `r = z**0.5` with z = 0±0 has a NaN derivative, and standard deviation 0. -/
example : sees exCs (.derivatives (.ref 4)) = .dict exR ∧ exR 2 = some nan ∧
    sees exCs (.stdDev (.ref 4)) = .val (.flt (fin 0)) := by
  refine ⟨ex_r.derivatives, rfl, ?_⟩
  apply C07_exact_variables (n := fin 0) (D := exR)
  refine ⟨ex_r.nominal, ex_r.derivatives, ?_⟩
  intro v hv
  have : v = 2 := by by_contra h; exact hv (by simp [exR, h])
  subst this
  have := ex_r.std 2 hv
  simpa [exStd] using this

/-- With z = 0±1 set before reading, the standard deviation is NaN. -/
example : sees (exCs ++ [.setStd (.ref 3) (fin 1)]) (.stdDev (.ref 4)) = .val (.flt nan) := by
  have hr := (ex_reaches.snoc (.setStd (.ref 3) (fin 1)) rfl).2
  have hb : specBadStd (fin 1) = false := by simp [specBadStd, PyFloat.ltb]
  simp only [SState.step, exState, Arg.sevalUnc, Arg.seval, List.getElem?_cons_succ,
    List.getElem?_cons_zero, Option.join_some, hb] at hr
  have hq := hr.quantity_exists (x := .ref 4) rfl
  refine C07_undefined_derivative hq (v := 2) ?_ ?_
  · simp [Lin.comb, Lin.add, Lin.smul, Lin.single, Lin.zero, optAdd]
  · simp

end Unc
